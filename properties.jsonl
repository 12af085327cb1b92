{"id": "C01", "title": "DirectLiNGAM causal order is a permutation", "statement": "After DirectLiNGAM.fit returns without prior knowledge, causal_order_ lists every column index exactly once, whatever independence measure is used and whatever scores it yields; fit never fails inside the ordering loop.", "quantifier": "for every number of features n, every data set and every behaviour of the independence measure", "why_tests_cant": "a test fixes a data set and so one sequence of scores; the claim is about every sequence of argmax/argmin decisions", "anchors": ["lingam/direct_lingam.py:DirectLiNGAM.fit", "lingam/direct_lingam.py:_search_causal_order", "lingam/direct_lingam.py:_search_causal_order_kernel"]}
{"id": "C02", "title": "Adjacency matrix follows the causal order and is acyclic", "statement": "Whatever the adaptive-lasso regression returns, adjacency_matrix_[i,j] can be non-zero only if j comes strictly before i in causal_order_; so the diagonal is zero and the weighted graph has no directed cycle.", "quantifier": "for every causal order that is a permutation, every data set, every regression outcome and every prior knowledge matrix", "why_tests_cant": "acyclicity is a statement about all cycles of all lengths over all regression results", "anchors": ["lingam/base.py:_BaseLiNGAM._estimate_adjacency_matrix"]}
{"id": "C03", "title": "Prior knowledge zeros are never estimated as direct edges", "statement": "If prior_knowledge[i,j] = 0 (no path from j to i) then adjacency_matrix_[i,j] is exactly 0 after fit, with hard and with soft application of the prior knowledge.", "quantifier": "for every prior knowledge matrix, data set, measure and regression outcome", "why_tests_cant": "needs all placements of zeros in all prior matrices combined with all orders", "anchors": ["lingam/base.py:_estimate_adjacency_matrix", "lingam/direct_lingam.py:DirectLiNGAM.fit"]}
{"id": "C04", "title": "Hard prior knowledge is respected by the causal order", "statement": "If fit with hard prior knowledge (measure 'pwling' or 'kernel') returns, then for every i,j with prior_knowledge[i,j] = 1, j precedes i in causal_order_, and for every i,j with prior_knowledge[i,j] = 0 and prior_knowledge[j,i] not 0, i precedes j.", "quantifier": "for every prior knowledge matrix over {-1,0,1} of every size and every behaviour of the measure", "why_tests_cant": "tests check one matrix and one data set; the data may push the search against the prior", "anchors": ["lingam/direct_lingam.py:_extract_partial_orders", "lingam/direct_lingam.py:_search_candidate", "lingam/direct_lingam.py:fit"]}
{"id": "C05", "title": "Hard prior knowledge: fit fails exactly when the prior is cyclic", "statement": "fit with hard prior knowledge (measure 'pwling' or 'kernel') raises an error exactly when the precedence relation implied by the matrix (path pairs plus reversed one-sided no-path pairs) contains a directed cycle (including contradicting pairs); otherwise it always succeeds, whatever the scores.", "quantifier": "for every prior knowledge matrix of every size and every behaviour of the measure", "why_tests_cant": "the cycle may have any length and the failure point depends on the scores", "anchors": ["lingam/direct_lingam.py:_extract_partial_orders", "lingam/direct_lingam.py:_search_candidate", "lingam/direct_lingam.py:_search_causal_order"]}
{"id": "C06", "title": "Soft prior knowledge: when the ordering can fail", "statement": "With apply_prior_knowledge_softly=True fit produces a permutation for every prior knowledge matrix whose requested paths do not contradict each other (the relation 'a path from j to i is requested' has no cycle), whatever non-path knowledge is added; contradicting paths can make fit raise an error. Every step takes the best of the variables known to be exogenous among the remaining ones or, if there are none, of those not known to be endogenous or a sink.", "quantifier": "for every prior knowledge matrix and every behaviour of the measure", "why_tests_cant": "contradictory matrices form an infinite family and the failing candidate set can appear at any step", "anchors": ["lingam/direct_lingam.py:_search_candidate"]}
{"id": "C07", "title": "make_prior_knowledge encodes exactly the requested knowledge", "statement": "make_prior_knowledge returns a matrix with -1 on the diagonal whose entry [i,j] is 0 if i is exogenous or j is a sink, else 1 if (j,i) is a listed path, else 0 if (j,i) is a listed non-path, else -1.", "quantifier": "for every n and all lists of exogenous variables, sinks, paths and no-paths", "why_tests_cant": "the override order matters only for overlapping requests, which are infinitely many", "anchors": ["lingam/utils/__init__.py:make_prior_knowledge"]}
{"id": "C08", "title": "Exogenous and sink requests carry through to the estimate", "statement": "Fitting DirectLiNGAM with the matrix of make_prior_knowledge gives a variable requested as exogenous no parents and a variable requested as sink no children.", "quantifier": "for every request and every data set, hard or soft", "why_tests_cant": "composition of two components over all inputs", "anchors": ["lingam/utils/__init__.py:make_prior_knowledge", "lingam/direct_lingam.py:DirectLiNGAM.fit"]}
{"id": "C09", "title": "find_all_paths enumerates exactly the directed paths", "statement": "On an acyclic graph and from != to, find_all_paths returns without error a list that contains every directed path from from_index to to_index along edges with |weight| > min_causal_effect, nothing else, and no path twice.", "quantifier": "for every acyclic weight matrix of every size, every pair of distinct nodes and every threshold", "why_tests_cant": "completeness over all graphs cannot be sampled; the iterative stack search mutates a shared list", "anchors": ["lingam/utils/__init__.py:find_all_paths"]}
{"id": "C10", "title": "find_all_paths effects are products of coefficients", "statement": "The effect returned for a path is the product of the matrix coefficients along its edges, in the same position as the path.", "quantifier": "for every acyclic weight matrix and every pair", "why_tests_cant": "relates two result lists for all graphs", "anchors": ["lingam/utils/__init__.py:find_all_paths"]}
{"id": "C11", "title": "find_all_paths always terminates", "statement": "find_all_paths terminates on every matrix, cyclic or not, either with a result or with the cycle error; the stack never grows beyond the number of nodes plus one.", "quantifier": "for every matrix (cyclic ones included), pair of nodes and threshold", "why_tests_cant": "non-termination is not observable by a finite test", "anchors": ["lingam/utils/__init__.py:find_all_paths"]}
{"id": "C12", "title": "find_all_paths reports cycles", "statement": "If the part of the graph reachable from from_index contains a directed cycle, find_all_paths raises the 'cyclic' error instead of returning paths.", "quantifier": "for every matrix and pair of nodes", "why_tests_cant": "there are cyclic graphs for which the aliasing of the first neighbour list hides the cycle; a sample of cyclic graphs passes", "anchors": ["lingam/utils/__init__.py:find_all_paths"]}
{"id": "C13", "title": "calculate_total_effect equals the entry of (I-B)^-1", "statement": "For an acyclic adjacency matrix B and from != to, calculate_total_effect(B, from, to) equals the sum over all directed paths of the products of coefficients, which is the [to, from] entry of the inverse of I-B. Equal or out-of-range indices raise ValueError; with is_continuous the call is refused exactly when a directed path meets a discrete variable after its start.", "quantifier": "for every acyclic matrix over every field of coefficients and every pair", "why_tests_cant": "algebraic identity over all DAGs", "anchors": ["lingam/utils/__init__.py:calculate_total_effect", "lingam/utils/__init__.py:find_all_paths"]}
{"id": "C14", "title": "Total effect is zero against the causal order", "statement": "If the adjacency matrix follows a causal order then the total effect from a later to an earlier variable is 0 and bootstrap total_effects_ is zero on those entries.", "quantifier": "for every order-respecting matrix", "why_tests_cant": "all orders, all sizes", "anchors": ["lingam/utils/__init__.py:calculate_total_effect", "lingam/bootstrap.py:BootstrapMixin.bootstrap"]}
{"id": "C15", "title": "Raising min_causal_effect only removes paths", "statement": "The paths found with a larger min_causal_effect are a subset of those found with a smaller one, with the same effects.", "quantifier": "for every acyclic matrix and every two thresholds", "why_tests_cant": "relational (two runs) and over all matrices", "anchors": ["lingam/utils/__init__.py:find_all_paths"]}
{"id": "C16", "title": "Bootstrap direction counts are exact", "statement": "get_causal_direction_counts lists each ordered pair with at least one sample whose |coefficient| exceeds min_causal_effect exactly once, with its count equal to the number of such bootstrap samples, in non-increasing order of count; at most n_directions of them are kept and no kept count is smaller than a dropped one.", "quantifier": "for every list of bootstrap adjacency matrices (NaN included), threshold and n_directions, and every tie-breaking of the sort", "why_tests_cant": "exact multiset counting for all matrices and any tie order", "anchors": ["lingam/bootstrap.py:BootstrapResult.get_causal_direction_counts"]}
{"id": "C17", "title": "Sign split refines the direction counts", "statement": "With split_by_causal_effect_sign the counts of the positive and the negative entry of a pair sum to the unsplit count, and each sign occurs for a pair at most once.", "quantifier": "for every list of matrices and threshold >= 0", "why_tests_cant": "relational over all inputs", "anchors": ["lingam/bootstrap.py:get_causal_direction_counts"]}
{"id": "C18", "title": "Bootstrap DAG counts partition the samples", "statement": "get_directed_acyclic_graph_counts groups bootstrap samples exactly by their thresholded edge set (with sign when split): counts are positive, sum to the number of samples when n_dags is None, no DAG is listed twice, and each count is the number of samples with that edge set; order is non-increasing.", "quantifier": "for every list of matrices and threshold", "why_tests_cant": "partition property over all inputs", "anchors": ["lingam/bootstrap.py:get_directed_acyclic_graph_counts"]}
{"id": "C19", "title": "Bootstrap probabilities agree with the counts", "statement": "get_probabilities()[i,j] times the number of samples equals the direction count of j -> i at the same threshold, lies in [0,1], and is monotone non-increasing in min_causal_effect.", "quantifier": "for every list of matrices and thresholds", "why_tests_cant": "cross-API agreement for all inputs", "anchors": ["lingam/bootstrap.py:get_probabilities", "lingam/bootstrap.py:get_causal_direction_counts"]}
{"id": "C20", "title": "Total causal effects listing", "statement": "get_total_causal_effects lists exactly the ordered pairs whose total effect exceeds the threshold in some sample, once each, with probability = fraction of such samples, sorted non-increasingly; the reported effect is the median of the total effects of the samples counted in the probability.", "quantifier": "for every list of total-effect matrices and threshold", "why_tests_cant": "the median is taken over a different sample set when a threshold is given, visible only for some inputs", "anchors": ["lingam/bootstrap.py:get_total_causal_effects"]}
{"id": "C21", "title": "Bootstrap path probabilities", "statement": "BootstrapResult.get_paths lists every directed path that occurs in at least one bootstrap graph exactly once, with probability = (number of samples whose graph contains it)/n in (0,1], sorted non-increasingly; the underscore encoding of paths is injective so no two paths are merged.", "quantifier": "for every list of acyclic matrices and pair of nodes", "why_tests_cant": "string encoding injectivity and counting for all inputs", "anchors": ["lingam/bootstrap.py:BootstrapResult.get_paths"]}
{"id": "C22", "title": "Bootstrap stores what each resample produced", "statement": "DirectLiNGAM.bootstrap(n_sampling) performs exactly n_sampling fits and total_effects_[s,to,from] is the path-sum total effect of the s-th matrix for every from before to in the s-th order and 0 elsewhere.", "quantifier": "for every n_sampling > 0 and all resamples", "why_tests_cant": "all sequences of fits", "anchors": ["lingam/bootstrap.py:BootstrapMixin.bootstrap"]}
{"id": "C23", "title": "ICA-LiNGAM order search succeeds exactly on acyclic matrices", "statement": "The order search of ICA-LiNGAM returns a causal order consistent with the matrix if its non-zero pattern is acyclic, and None otherwise.", "quantifier": "for every square matrix", "why_tests_cant": "all patterns, all sizes", "anchors": ["lingam/ica_lingam.py:_search_causal_order"]}
{"id": "C24", "title": "ICA-LiNGAM always finds an order for two or more variables", "statement": "For n >= 2 and a matrix with zero diagonal, the pruning loop terminates with a permutation; and the final adjacency_matrix_ respects causal_order_. For n = 1 the order is None.", "quantifier": "for every matrix with zero diagonal of size >= 2", "why_tests_cant": "depends on a counting argument over all magnitude orderings", "anchors": ["lingam/ica_lingam.py:_estimate_causal_order", "lingam/ica_lingam.py:fit"]}
{"id": "C25", "title": "RCD ancestor extraction terminates with consistent sets", "statement": "RCD's ancestor search terminates for any outcome of the statistical tests; no variable is its own ancestor and no two variables are mutually ancestors.", "quantifier": "for every number of variables, every max_explanatory_num and every behaviour of the independence, correlation and normality tests", "why_tests_cant": "test outcomes can be arbitrary (even non-transitive); termination is not testable", "anchors": ["lingam/rcd.py:RCD._extract_ancestors", "lingam/utils/_rcd.py:extract_ancestors"]}
{"id": "C26", "title": "RCD parents, confounders and NaN pattern", "statement": "Every estimated parent is an estimated ancestor; NaN entries are symmetric, never on the diagonal, and a pair marked NaN has no directed edge; non-zero non-NaN entries occur only for parents.", "quantifier": "for every outcome of the tests and regressions", "why_tests_cant": "structure must hold for all outcomes", "anchors": ["lingam/rcd.py:_extract_parents", "lingam/rcd.py:_extract_vars_sharing_confounders", "lingam/rcd.py:_estimate_adjacency_matrix"]}
{"id": "C27", "title": "RCD estimates an acyclic graph", "statement": "The directed part of RCD's adjacency matrix is acyclic.", "quantifier": "for every outcome of the tests", "why_tests_cant": "a cycle needs inconsistent test outcomes that no prepared data set shows", "anchors": ["lingam/rcd.py:_extract_ancestors"]}
{"id": "C28", "title": "CAM-UV parent search terminates with consistent sets", "statement": "CAM-UV's parent search terminates for any behaviour of the independence tests; a variable is never its own parent, two variables are never parents of each other, every parent is a neighbour (dependent pair), and a parent set found never contains a pair forbidden by prior knowledge.", "quantifier": "for every number of variables, every num_explanatory_vals and every behaviour of tests and regressions", "why_tests_cant": "arbitrary test outcomes; termination", "anchors": ["lingam/camuv.py:CAMUV._find_parents", "lingam/camuv.py:_get_child", "lingam/camuv.py:_check_prior_knowledge"]}
{"id": "C29", "title": "CAM-UV adjacency pattern", "statement": "CAM-UV's adjacency matrix has 1 exactly at parents, NaN exactly at the (symmetric) confounded pairs, 0 elsewhere; a pair is never both NaN and 1.", "quantifier": "for every outcome of the tests", "why_tests_cant": "structure over all outcomes", "anchors": ["lingam/camuv.py:fit", "lingam/camuv.py:_estimate_adjacency_matrix"]}
{"id": "C30", "title": "CAM-UV estimates an acyclic graph", "statement": "The directed part of CAM-UV's adjacency matrix is acyclic.", "quantifier": "for every outcome of the tests", "why_tests_cant": "needs inconsistent test outcomes", "anchors": ["lingam/camuv.py:_find_parents"]}
{"id": "C31", "title": "RESIT order and graph", "statement": "RESIT returns a causal order that is a permutation, a 0/1 adjacency matrix respecting the order, and every variable except the first in the order keeps at least one parent.", "quantifier": "for every regressor and every outcome of the independence test", "why_tests_cant": "for all outcomes; the last part is a surprising structural consequence", "anchors": ["lingam/resit.py:RESIT._estimate_order", "lingam/resit.py:_remove_edges"]}
{"id": "C32", "title": "BottomUpParceLiNGAM order and NaN block", "statement": "causal_order_ of BottomUpParceLiNGAM lists every variable exactly once when the unresolved block is flattened; NaN appears exactly at pairs of different variables inside the unresolved block; other non-zero entries go from earlier to later variables.", "quantifier": "for every outcome of the independence tests and regressions", "why_tests_cant": "all stopping points and outcomes", "anchors": ["lingam/bottom_up_parce_lingam.py:_search_causal_order", "lingam/bottom_up_parce_lingam.py:_estimate_adjacency_matrix"]}
{"id": "C33", "title": "CausalEffect validates the causal model", "statement": "CausalEffect accepts an adjacency matrix given as causal model only if it is acyclic, and then uses an order consistent with it; cyclic matrices are rejected with ValueError.", "quantifier": "for every square matrix", "why_tests_cant": "tolerance-based zero test lets tiny cycles through; all matrices", "anchors": ["lingam/causal_effect.py:CausalEffect._check_init_params"]}
{"id": "C34", "title": "Propagated effects solve the intervention equations", "statement": "The interventional means used by estimate_effects_on_prediction are the unique solution of the structural equations with the intervened variable fixed; intervening at a variable's mean leaves all means unchanged.", "quantifier": "for every acyclic matrix, mean vector and intervention", "why_tests_cant": "uniqueness and equality over all DAGs", "anchors": ["lingam/causal_effect.py:_get_propagated_effects"]}
{"id": "C35", "title": "Optimal intervention reaches the desired output", "statement": "For a linear prediction model, setting the intervention variable to the value returned by estimate_optimal_intervention makes the expected prediction equal desired_output, independently of the random order in which variables are processed.", "quantifier": "for every acyclic matrix, linear model with non-zero effect, desired output and every random processing order", "why_tests_cant": "quantifies over all schedules; fails when parent coefficients cancel", "anchors": ["lingam/causal_effect.py:estimate_optimal_intervention"]}
{"id": "C36", "title": "VARLiNGAM lagged coefficients transform", "statement": "VARLiNGAM's lagged matrices satisfy B_tau = (I - B_0) M_tau, and the implied structural equations reproduce exactly the fitted VAR: x_t = B_0 x_t + sum B_tau x_{t-tau} + e_t holds iff the VAR residual n_t satisfies e_t = (I - B_0) n_t.", "quantifier": "for all coefficient matrices and series", "why_tests_cant": "algebraic identity", "anchors": ["lingam/var_lingam.py:_calc_b", "lingam/var_lingam.py:_calc_residuals"]}
{"id": "C37", "title": "VARLiNGAM fit depends only on its configuration and data", "statement": "Calling fit on a VARLiNGAM (VARMALiNGAM) object gives the same result whether or not the object was fitted before.", "quantifier": "for every history of fit calls", "why_tests_cant": "history dependence: every single-fit test passes", "anchors": ["lingam/var_lingam.py:fit", "lingam/varma_lingam.py:fit"]}
{"id": "C38", "title": "VARLiNGAM total effects use all paths in the time-unrolled graph", "statement": "estimate_total_effect2 with from_lag L returns the sum over all directed paths in the graph unrolled over L+1 time points.", "quantifier": "for every set of coefficient matrices and lag", "why_tests_cant": "only visible for lag >= 1 with paths through lagged intermediates", "anchors": ["lingam/var_lingam.py:estimate_total_effect2", "lingam/var_lingam.py:VARBootstrapResult.get_paths"]}
{"id": "C39", "title": "VARMALiNGAM total effects use the requested lag", "statement": "VARMALiNGAM.estimate_total_effect2(from, to, from_lag=L) measures the effect of the variable at lag L.", "quantifier": "for every lag L", "why_tests_cant": "lag 0 and 1 behave, larger lags are silently the lag-1 effect", "anchors": ["lingam/varma_lingam.py:estimate_total_effect2"]}
{"id": "C40", "title": "VARMALiNGAM omega transform", "statement": "omega_j = (I - psi_0) theta_j (I - psi_0)^{-1}.", "quantifier": "for all matrices", "why_tests_cant": "the two-argument/three-argument form of a library call is only visible on non-commuting matrices", "anchors": ["lingam/varma_lingam.py:_calc_psi_and_omega"]}
{"id": "C41", "title": "LongitudinalLiNGAM lag indexing", "statement": "adjacency_matrices_[t, tau] holds the coefficients of time t on time t - tau for every tau = 0..n_lags, as documented and as assumed by estimate_total_effect2 and get_paths.", "quantifier": "for every number of time points and lags", "why_tests_cant": "n_lags = 1 (the tested default) hides the order", "anchors": ["lingam/longitudinal_lingam.py:fit", "lingam/longitudinal_lingam.py:_compute_residuals", "lingam/longitudinal_lingam.py:estimate_total_effect2"]}
{"id": "C42", "title": "LiM/LiNA acyclicity measure characterises DAGs", "statement": "The acyclicity measure h(W) = tr((I + W∘W/d)^d) - d used by LiM and LiNA is non-negative, and it is zero exactly when the graph of W has no directed cycle.", "quantifier": "for every real square matrix W", "why_tests_cant": "iff over all matrices", "anchors": ["lingam/lim.py:_h", "lingam/lina.py:_h"]}
{"id": "C43", "title": "LiM returns an acyclic graph", "statement": "The adjacency matrix returned by LiM.fit describes an acyclic graph.", "quantifier": "for every run of the optimiser", "why_tests_cant": "tolerance h_tol is not zero: weights at the edge threshold on a long cycle pass", "anchors": ["lingam/lim.py:LiM.fit", "lingam/lim.py:_estimate_LiM"]}
{"id": "C44", "title": "Simulator reproduces the training data when nothing is changed", "statement": "CausalBasedSimulator.run() without changes and without shuffling returns the training data exactly for numeric variables, whatever regression models are used.", "quantifier": "for every acyclic causal graph, training data and regression model", "why_tests_cant": "all graphs and all model behaviours", "anchors": ["lingam/causal_based_simulator.py:_simulate", "lingam/causal_based_simulator.py:_train", "lingam/causal_based_simulator.py:_calc_causal_order"]}
{"id": "C45", "title": "Simulator interventions are local", "statement": "With changing_exog / changing_models, variables that are not descendants (in the changed graph) of a changed variable keep their values, and each simulated variable satisfies its structural equation with its simulated parents; changes that make the graph cyclic are rejected with ValueError and all others are accepted.", "quantifier": "for every graph, every set of changes and models", "why_tests_cant": "non-interference over all graphs", "anchors": ["lingam/causal_based_simulator.py:_simulate", "lingam/causal_based_simulator.py:get_causal_order"]}
{"id": "C46", "title": "Data generator reproduces its input", "statement": "CausalDataGenerator.generate() without interventions returns cause and effect columns equal to the input data for numeric variables.", "quantifier": "for every data set, set of adjustments and regression models", "why_tests_cant": "fails for an empty adjustment set", "anchors": ["lingam/experimental/cdg.py:CausalDataGenerator.generate", "lingam/experimental/cdg.py:fit"]}
{"id": "C47", "title": "Markov blanket selection", "statement": "Out-of-sample causal tuning uses, for variable i, exactly parents, children and co-parents of i; the relation is symmetric and never contains i itself for acyclic graphs; the selected configuration never has a larger average blanket than the best-scoring one.", "quantifier": "for every graph and every score list", "why_tests_cant": "symmetry over all graphs", "anchors": ["lingam/experimental/oct.py:_get_mb", "lingam/experimental/oct.py:_sparsity_penalty"]}
{"id": "C48", "title": "Multi-group results do not depend on the order of the data sets", "statement": "MultiGroupDirectLiNGAM's causal order and MultiGroupRCD/MultiGroupCAMUV's independence decisions are unchanged when the data sets in X_list are permuted.", "quantifier": "for every list of data sets and every permutation", "why_tests_cant": "needs all permutations and all statistic values; one branch uses the last data set only", "anchors": ["lingam/multi_group_direct_lingam.py:_search_causal_order", "lingam/multi_group_rcd.py:_is_independent", "lingam/multi_group_camuv.py:_is_independent_by"]}
{"id": "C49", "title": "Error independence p-values form a symmetric matrix", "statement": "get_error_independence_p_values returns a symmetric matrix with zero diagonal whose entry [i,j] is the p-value of the residuals of i and j (i<j), NaN exactly for variables touching NaN coefficients.", "quantifier": "for every number of variables and every p-value function", "why_tests_cant": "all sizes", "anchors": ["lingam/base.py:get_error_independence_p_values", "lingam/rcd.py:get_error_independence_p_values"]}
{"id": "C50", "title": "Sink and exogenous variable extraction", "statement": "get_sink_variables returns exactly the variables without outgoing edges and get_exo_variables exactly those without incoming edges, ignoring self loops, in increasing order; an acyclic graph with at least one node has at least one of each.", "quantifier": "for every matrix", "why_tests_cant": "all matrices", "anchors": ["lingam/utils/__init__.py:get_sink_variables", "lingam/utils/__init__.py:get_exo_variables"]}
{"id": "C51", "title": "Distance from root nodes", "statement": "calculate_distance_from_root_nodes groups every node of an acyclic graph under the length of the shortest directed path from a root, where the roots are the nodes without parents.", "quantifier": "for every acyclic matrix", "why_tests_cant": "coefficients that cancel in a row make a non-root look like a root", "anchors": ["lingam/utils/__init__.py:calculate_distance_from_root_nodes"]}
{"id": "C52", "title": "Imputation bootstrap records only imputed cells", "statement": "bootstrap_with_imputation returns imputation_results whose non-NaN cells are exactly the cells missing in the resampled data, with the imputed values; a causal discovery model whose order is not a permutation of the columns is rejected.", "quantifier": "for every data set, resampling and imputer", "why_tests_cant": "all missingness patterns", "anchors": ["lingam/tools/__init__.py:bootstrap_with_imputation", "lingam/tools/__init__.py:_check_cd_output"]}
{"id": "C53", "title": "Prior knowledge is honoured with measure 'pwling_fast'", "statement": "If fit with hard prior knowledge and measure='pwling_fast' returns, the causal order respects the prior knowledge as it does for the other measures (C04), and fit fails exactly when the prior is cyclic (C05).", "quantifier": "for every prior knowledge matrix and every behaviour of the GPU scores", "why_tests_cant": "needs a GPU and all score sequences; the fast path selects from all remaining variables", "anchors": ["lingam/direct_lingam.py:_search_causal_order_gpu", "lingam/direct_lingam.py:fit"]}
{"id": "C54", "title": "No-path knowledge excludes indirect paths too", "statement": "If prior_knowledge[i,j] = 0 (x_j has no directed path to x_i) is applied hard, the estimated graph contains no directed path from j to i of any length.", "quantifier": "for every prior knowledge matrix, data set and regression outcome", "why_tests_cant": "paths of any length over all results", "anchors": ["lingam/direct_lingam.py:_extract_partial_orders", "lingam/base.py:_estimate_adjacency_matrix"]}
{"id": "C55", "title": "Each row of the adjacency matrix is one regression on all permitted predecessors", "statement": "For every variable t, row t of adjacency_matrix_ consists of the coefficients of one regression of t on exactly the variables that precede it in causal_order_ and are not excluded by prior knowledge, in causal order; all other entries are 0.", "quantifier": "for every data set, order, prior knowledge matrix and regression outcome", "why_tests_cant": "a test sees single numeric matrices and cannot tell which predictors were offered", "anchors": ["lingam/base.py:_estimate_adjacency_matrix", "lingam/direct_lingam.py:fit"]}
{"id": "C56", "title": "Every ordering step takes the best admissible variable", "statement": "Without NaN scores, the variable placed at each position has the best score (largest for pwling, smallest for kernel) among the remaining variables all of whose required predecessors are already placed; on ties it is the one with the smallest column index.", "quantifier": "for every score function, every hard or absent prior knowledge matrix and every position of the order", "why_tests_cant": "greedy optimality is a statement about all score functions and all positions", "anchors": ["lingam/direct_lingam.py:_search_causal_order", "lingam/direct_lingam.py:_search_causal_order_kernel", "lingam/direct_lingam.py:_search_candidate"]}
{"id": "C57", "title": "Requested paths exist in the estimate", "statement": "If prior_knowledge[i,j] = 1 (x_j has a directed path to x_i) the estimated graph contains a directed path from j to i.", "quantifier": "for every prior knowledge matrix, data set and regression outcome", "why_tests_cant": "depends on every regression outcome", "anchors": ["lingam/direct_lingam.py:fit", "lingam/base.py:_estimate_adjacency_matrix"]}
{"id": "C58", "title": "ICA-LiNGAM recovers the model from an exact unmixing matrix", "statement": "If the ICA step returns an exact unmixing matrix of an acyclic linear model x = Bx + e with at least two variables, with its rows in any order and at any nonzero scale, then the row permutation and scaling recover B exactly and causal_order_ is an order in which every edge of B points forward.", "quantifier": "for every acyclic coefficient matrix, every row order and scale, every tie-breaking of the sort and of the assignment solver", "why_tests_cant": "uniqueness of the assignment and the number of zeros of an acyclic matrix are arguments over all matrices and sizes", "anchors": ["lingam/ica_lingam.py:fit", "lingam/ica_lingam.py:_estimate_causal_order", "lingam/ica_lingam.py:_search_causal_order"]}
{"id": "C59", "title": "RCD bootstrap stores the total effect of every pair", "statement": "RCD.bootstrap stores, for every resample and every ordered pair of variables, the total effect implied by that resample's adjacency matrix (NaN when the source variable shares an unobserved cause with another variable).", "quantifier": "for every outcome of the tests and regressions in each resample", "why_tests_cant": "the loop runs over the recorded ancestor sets, which need not be transitively closed; only particular combinations of test outcomes show the difference", "anchors": ["lingam/rcd.py:RCD.bootstrap", "lingam/rcd.py:RCD.estimate_total_effect2", "lingam/rcd.py:RCD._extract_ancestors"]}
{"id": "C60", "title": "CAM-UV tries as many explanatory variables as requested", "statement": "With num_explanatory_vals = k CAM-UV considers every candidate set of up to k explanatory variables for a child, as documented ('Maximum number of explanatory variables').", "quantifier": "for every data set, every k", "why_tests_cant": "whether a set size is skipped only shows on data where the parents explain the child jointly but not separately", "anchors": ["lingam/camuv.py:CAMUV._find_parents", "lingam/multi_group_camuv.py:MultiGroupCAMUV._find_parents"]}
{"id": "C61", "title": "BottomUpParceLiNGAM accepts a variable only after a passed test", "statement": "BottomUpParceLiNGAM puts a variable in the resolved part of causal_order_ only if the residuals of its regression passed the independence test (p-value at least alpha/(n-1), or F-correlation below the threshold) while the variables behind it were removed; variables that fail stay in the unresolved block.", "quantifier": "for every outcome of the independence tests, including p-values that are exactly 0", "why_tests_cant": "p-values of exactly 0 for every candidate only occur on strongly confounded data and take a separate path through the code", "anchors": ["lingam/bottom_up_parce_lingam.py:_find_exo_vec", "lingam/bottom_up_parce_lingam.py:_is_reject", "lingam/bottom_up_parce_lingam.py:_search_causal_order"]}
{"id": "C62", "title": "bootstrap leaves the fitted VARLiNGAM model in place", "statement": "After VARLiNGAM.bootstrap the object still reports the model fitted to the data that was passed in (adjacency_matrices_, causal_order_, residuals_).", "quantifier": "for every data set, configuration and outcome of resampling", "why_tests_cant": "tests look at the returned result object, not at the estimator afterwards", "anchors": ["lingam/var_lingam.py:VARLiNGAM.bootstrap"]}
{"id": "C63", "title": "VARLiNGAM bootstrap resamples the residuals of the fitted model", "statement": "In every round of VARLiNGAM.bootstrap any residual of the model fitted to the data can be drawn; rounds are independent of each other.", "quantifier": "for every number of rounds and every outcome of resampling", "why_tests_cant": "a chain effect over rounds; each round looks plausible on its own", "anchors": ["lingam/var_lingam.py:VARLiNGAM.bootstrap", "lingam/var_lingam.py:VARLiNGAM._calc_residuals"]}
{"id": "C64", "title": "VARLiNGAM and VARMALiNGAM instantaneous graph follows the causal order", "statement": "With or without pruning, every nonzero entry [i, j] of the instantaneous matrix goes from an earlier to a later variable of causal_order_, so the instantaneous graph is acyclic.", "quantifier": "for every data set, VAR/VARMA estimate, LiNGAM result consistent with its order, and lasso outcome", "why_tests_cant": "pruning overwrites rows of the matrix one by one; an index error shows only for particular orders", "anchors": ["lingam/var_lingam.py:VARLiNGAM.fit", "lingam/var_lingam.py:VARLiNGAM._pruning", "lingam/varma_lingam.py:VARMALiNGAM.fit", "lingam/varma_lingam.py:VARMALiNGAM._pruning"]}
{"id": "C65", "title": "VARLiNGAM pruning regresses on true predecessors and true lags", "statement": "With pruning, row i of all reported matrices comes from one regression of x_i(t) on the variables before i in causal_order_ at time t and on all variables at times t-1..t-lags, using every time point for which these exist and no wrapped-around values; coefficients are assigned to the matching entries.", "quantifier": "for every series, number of variables, lags and causal order", "why_tests_cant": "the design matrix is built by rolling, reversing and slice assignment; a wrong row is invisible in the shape of the result", "anchors": ["lingam/var_lingam.py:VARLiNGAM._pruning"]}
{"id": "C66", "title": "VARBootstrapResult.get_paths lists exactly the paths of the time-unrolled graph", "statement": "For each bootstrap sample get_paths(from_index, to_index, from_lag, to_lag) considers exactly the directed paths between the two variables at the given lags in the graph unrolled over the lags, each once, with the product of coefficients as effect; requests against time or from a variable to itself are refused.", "quantifier": "for every acyclic instantaneous matrix, number of variables and lags, and threshold", "why_tests_cant": "the expansion matrix is assembled block by block; tests use one or two lags", "anchors": ["lingam/var_lingam.py:VARBootstrapResult.get_paths", "lingam/varma_lingam.py:VARMABootstrapResult.get_paths"]}
{"id": "C67", "title": "VARLiNGAM.estimate_total_effect regresses on the source and its parents at the right time", "statement": "The regression uses the source variable at the requested lag and exactly its parents in the time-unrolled graph, and pairs every sample with values from its own past.", "quantifier": "for every matrix list, lag and series", "why_tests_cant": "a shifted column or a wrapped row changes the estimate only slightly on long series", "anchors": ["lingam/var_lingam.py:VARLiNGAM.estimate_total_effect"]}
{"id": "C68", "title": "VARMALiNGAM can be fitted with known coefficients and more than once", "statement": "VARMALiNGAM.fit works when ar_coefs and ma_coefs are specified, and may be called again on an object that was fitted before.", "quantifier": "for every data set and order with an MA part", "why_tests_cant": "needs two calls on one object, or specified coefficients together with the default pruning", "anchors": ["lingam/varma_lingam.py:VARMALiNGAM.fit", "lingam/varma_lingam.py:VARMALiNGAM._calc_residuals", "lingam/varma_lingam.py:VARMALiNGAM._pruning", "lingam/varma_lingam.py:VARMALiNGAM.bootstrap"]}
{"id": "C69", "title": "VARLiNGAM bootstrap series follow the fitted VAR", "statement": "Each resampled series satisfies the fitted VAR equations exactly, with the drawn residuals as innovations.", "quantifier": "for every length, number of lags, coefficient matrices and drawn residuals", "why_tests_cant": "off-by-one errors in the lag index still give plausible series", "anchors": ["lingam/var_lingam.py:VARLiNGAM.bootstrap"]}
{"id": "C70", "title": "VARMALiNGAM.estimate_total_effect adjusts for the parents of the source", "statement": "The regression for from_lag = L uses the source at lag L and its parents (lagged values and lagged errors) relative to that lag.", "quantifier": "for every order, lag and matrices", "why_tests_cant": "the columns used instead exist and are correlated with the right ones", "anchors": ["lingam/varma_lingam.py:VARMALiNGAM.estimate_total_effect"]}
{"id": "C71", "title": "VARMALiNGAM residuals and bootstrap series satisfy the VARMA equation", "statement": "With given coefficients residuals_ are the innovations of the data from time max(p, q) on, and each resampled series solves the VARMA equation with the drawn residuals as innovations.", "quantifier": "for every series, order and coefficient matrices", "why_tests_cant": "recursions over time with two lag polynomials; off-by-one errors give plausible numbers", "anchors": ["lingam/varma_lingam.py:VARMALiNGAM._calc_residuals", "lingam/varma_lingam.py:VARMALiNGAM.bootstrap"]}
{"id": "C72", "title": "LongitudinalLiNGAM respects prior knowledge", "statement": "A zero at prior_knowledge[t, tau, i, j] makes adjacency_matrices_[t, tau, i, j] zero, and no effect backwards in time or over more than n_lags time points is estimated. A 1 at prior_knowledge[t, 0, i, j] puts j before i in causal_orders_[t]; a 0 without a 0 in the opposite direction puts i before j.", "quantifier": "for every panel, number of lags and prior knowledge", "why_tests_cant": "the reported lags are reversed afterwards, which only shows for two or more lags", "anchors": ["lingam/longitudinal_lingam.py:LongitudinalLiNGAM.fit"]}
{"id": "C73", "title": "LongitudinalLiNGAM.estimate_total_effect2 sums over all paths through time", "statement": "The value is the sum, over all directed paths between the two variables in the graph over all time points given by adjacency_matrices_, of the products of coefficients.", "quantifier": "for every number of features, lags, time points and every acyclic instantaneous structure", "why_tests_cant": "the code works on a window of the graph; that no path leaves the window is a statement about all graphs", "anchors": ["lingam/longitudinal_lingam.py:LongitudinalLiNGAM.estimate_total_effect2"]}
{"id": "C74", "title": "LongitudinalBootstrapResult.get_paths lists exactly the paths through time", "statement": "For each sample the paths considered are exactly the directed paths of the longitudinal graph between the given variables, each once, with the product of coefficients; impossible requests are refused.", "quantifier": "for every number of features, lags, time points, threshold and acyclic instantaneous structure", "why_tests_cant": "enumeration over all graphs", "anchors": ["lingam/longitudinal_lingam.py:LongitudinalBootstrapResult.get_paths"]}
{"id": "C75", "title": "LongitudinalLiNGAM.bootstrap works for every number of lags", "statement": "bootstrap(X_list, n_sampling) with default arguments returns a result for every admissible n_lags.", "quantifier": "for every panel, number of lags, start time and outcome of resampling", "why_tests_cant": "the tested default n_lags = 1 never meets a time point without causal order", "anchors": ["lingam/longitudinal_lingam.py:LongitudinalLiNGAM.bootstrap"]}
{"id": "C76", "title": "LongitudinalLiNGAM instantaneous graphs follow causal_orders_", "statement": "For every time point from n_lags on causal_orders_[t] is a permutation of the features and every nonzero entry of adjacency_matrices_[t, 0] goes forward in it; earlier time points are NaN; all instantaneous graphs are acyclic.", "quantifier": "for every panel, with and without prior knowledge", "why_tests_cant": "with prior knowledge the order is cut out of one joint order over all time points", "anchors": ["lingam/longitudinal_lingam.py:LongitudinalLiNGAM.fit", "lingam/longitudinal_lingam.py:LongitudinalLiNGAM._estimate_instantaneous_effects"]}
{"id": "C77", "title": "LongitudinalLiNGAM.residuals_ is available after fit", "statement": "After fit residuals_ holds for each time point what the regression on the past leaves of the data.", "quantifier": "for every panel, with and without prior knowledge", "why_tests_cant": "one branch of fit never sets the attribute", "anchors": ["lingam/longitudinal_lingam.py:LongitudinalLiNGAM.fit", "lingam/longitudinal_lingam.py:LongitudinalLiNGAM.residuals_"]}
{"id": "C78", "title": "LongitudinalLiNGAM bootstrap samples are fits to jointly resampled subjects", "statement": "fit does not depend on earlier calls; every bootstrap sample is what fit returns for a panel of whole resampled subjects (same rows at every time point), and its total effects are those of its own matrices.", "quantifier": "for every panel, number of samples and outcome of resampling", "why_tests_cant": "correct pairing over time and independence of rounds are statements about all runs", "anchors": ["lingam/longitudinal_lingam.py:LongitudinalLiNGAM.bootstrap"]}
{"id": "C79", "title": "LongitudinalLiNGAM.estimate_total_effect adjusts for the parents of the source", "statement": "The regression uses the source at from_t and exactly its parents, each taken at its own time point.", "quantifier": "for every number of lags and every data set", "why_tests_cant": "wrong time points show only for two or more lags", "anchors": ["lingam/longitudinal_lingam.py:LongitudinalLiNGAM.estimate_total_effect"]}
{"id": "C80", "title": "Optimisers get the gradient of their objective", "statement": "The gradient LiM and LiNA pass to the optimiser together with the objective is the gradient of that objective, for every loss type, the acyclicity constraint and the penalty.", "quantifier": "for all data, all matrices, all multipliers and every loss type", "why_tests_cant": "a wrong sign or a wrong mask still lets the optimiser return something plausible on a sample", "anchors": ["lingam/lim.py:_loss", "lingam/lim.py:_func", "lingam/lim.py:_h", "lingam/lina.py:_func", "lingam/lina.py:_loss"]}
{"id": "C81", "title": "LiM local search only improves", "statement": "The local search phase of LiM never returns a graph with a worse score than the optimisation phase; a changed graph has a strictly better score and passes the acyclicity test; apart from reversing edges it removes at most one adjacency and adds at most one.", "quantifier": "for every score function, matrix and tolerance", "why_tests_cant": "exponentially many candidates and arbitrary scores", "anchors": ["lingam/lim.py:_estimate_LiM"]}
{"id": "C82", "title": "LiM refits do not depend on earlier fits", "statement": "Calling LiM.fit a second time with the same data and random numbers gives the same result as the first call.", "quantifier": "for all data and every loss type", "why_tests_cant": "history dependence through object state", "anchors": ["lingam/lim.py:LiM.fit", "lingam/lim.py:_estimate_LiM"]}
{"id": "C83", "title": "LiM terminates and returns a solution of the optimiser", "statement": "The optimisation phase of LiM ends, and the matrix it returns is a thresholded solution found by the optimiser.", "quantifier": "for every behaviour of the optimiser and every random numbers", "why_tests_cant": "all optimiser behaviours; the random restart is rarely hit", "anchors": ["lingam/lim.py:_estimate_LiM"]}
{"id": "C84", "title": "Simulated time series are consistent over time", "statement": "When a VAR or VARMA model is simulated, the rows form one time series: the value of a variable at lag k+1 in the next row equals its value at lag k in the current row; VAR graphs are accepted exactly when the instantaneous part is acyclic.", "quantifier": "for every model, every series, number of lags and set of changes", "why_tests_cant": "relation between all rows of every simulated data set", "anchors": ["lingam/causal_based_simulator.py:_simulate", "lingam/causal_based_simulator.py:CBSITimeSeriesLiNGAM"]}
{"id": "C85", "title": "Data generator interventions take effect", "statement": "CausalDataGenerator.generate sets every variable named in interv_endog to the given values, leaves the variables it does not depend on unchanged, recomputes the effect from its new inputs and its unchanged error term, and refuses names other than cause, effect and adjustments with ValueError.", "quantifier": "for every data set, every estimator and every intervention", "why_tests_cant": "all interventions and estimators; a silently ignored argument gives plausible output", "anchors": ["lingam/experimental/cdg.py:CausalDataGenerator.generate", "lingam/experimental/cdg.py:_check_data_dict"]}
{"id": "C86", "title": "Out-of-sample causal tuning never selects a configuration with an undefined score", "statement": "A configuration whose predictive score is undefined (NaN) is not chosen by OutOfSampleCausalTuning.fit (best_config_index_) when another configuration has a defined score.", "quantifier": "for every list of configurations and scores", "why_tests_cant": "depends on how the first maximum treats NaN, which happens only for some graphs", "anchors": ["lingam/experimental/oct.py:fit", "lingam/experimental/oct.py:best_config_index_"]}
{"id": "C87", "title": "Out-of-sample causal tuning rejects ill-formed configurations", "statement": "A list of configurations is accepted exactly when every configuration is complete and well-formed; otherwise ValueError is raised before anything is fitted.", "quantifier": "for every list of configurations", "why_tests_cant": "all combinations of missing and ill-typed fields", "anchors": ["lingam/experimental/oct.py:_check_configs"]}
{"id": "C88", "title": "Imputation bootstrap completes with the default imputer", "statement": "bootstrap_with_imputation with the default imputer gives complete data sets to the causal discovery model, keeps observed values unchanged, and completes for every data set whose columns all have an observed value.", "quantifier": "for every data set and every resampling", "why_tests_cant": "fails only for resamples that leave a column without an observed value", "anchors": ["lingam/tools/__init__.py:bootstrap_with_imputation"]}
{"id": "C89", "title": "Joint estimation agrees with unanimous groups and gives one common order", "statement": "If every data set analysed alone gives the same causal order, MultiGroupDirectLiNGAM gives that order; its result always is a permutation, one matrix per data set, and every matrix only has edges forward in the common order.", "quantifier": "for every list of data sets of positive size, with and without prior knowledge, also for NaN statistics", "why_tests_cant": "all statistic values and group sizes", "anchors": ["lingam/multi_group_direct_lingam.py:MultiGroupDirectLiNGAM.fit", "lingam/multi_group_direct_lingam.py:MultiGroupDirectLiNGAM._search_causal_order"]}
{"id": "C90", "title": "Combined independence tests are monotone in the evidence", "statement": "In the multi-group methods, if every data set gives a larger p-value, the combined p-value is not smaller, so a decision for independence is not lost.", "quantifier": "for every list of p-values in the unit interval", "why_tests_cant": "all p-values, including 0", "anchors": ["lingam/multi_group_rcd.py:MultiGroupRCD._is_independent", "lingam/multi_group_camuv.py:MultiGroupCAMUV._is_independent_by"]}
{"id": "C91", "title": "MultiGroupRCD bootstrap marks unidentifiable effects as NaN", "statement": "The bootstrap of MultiGroupRCD records for each data set the total effect from its own matrix, and NaN for a source that shares a latent confounder with another variable, like RCD.", "quantifier": "for every list of data sets and pair of variables", "why_tests_cant": "wrong only for results with confounded pairs", "anchors": ["lingam/multi_group_rcd.py:MultiGroupRCD.bootstrap", "lingam/multi_group_rcd.py:MultiGroupRCD.estimate_total_effect2"]}
{"id": "C92", "title": "Removing an exogenous variable keeps the causal model", "statement": "If the data follow a linear model with errors uncorrelated in the sample, then after DirectLiNGAM has removed variables that had no remaining causes, its working data follow the same model (same coefficients, same errors) on the remaining variables.", "quantifier": "for every number of variables and rows, every coefficient matrix, all errors uncorrelated in the sample and non-constant, every sequence of removals", "why_tests_cant": "an identity for all data sets", "anchors": ["lingam/direct_lingam.py:DirectLiNGAM.fit", "lingam/direct_lingam.py:DirectLiNGAM._residual"]}
{"id": "C93", "title": "DirectLiNGAM recovers a true causal order when its independence measure is right", "statement": "If the data follow an acyclic linear model with uncorrelated errors and the pairwise statistic ranks variables without causes first on every set of variables following the model, then causal_order_ places every cause before its effects, also with hard prior knowledge that can be satisfied together with the true graph.", "quantifier": "for every model, data set, prior knowledge compatible with it, measures pwling and kernel", "why_tests_cant": "tests only sample a few models and depend on the random error draws", "anchors": ["lingam/direct_lingam.py:DirectLiNGAM.fit", "lingam/direct_lingam.py:DirectLiNGAM._search_causal_order", "lingam/direct_lingam.py:DirectLiNGAM._search_causal_order_kernel"]}
{"id": "C94", "title": "DirectLiNGAM recovers the coefficients exactly", "statement": "In the situation of C93, if the regressions are least squares on a selection of predictors that keeps the true causes, adjacency_matrix_ equals the true coefficient matrix and the errors computed from it are the true errors.", "quantifier": "for every model, data set and selection that keeps the true causes", "why_tests_cant": "an exact identity for all data sets; tests compare with tolerances", "anchors": ["lingam/base.py:_BaseLiNGAM._estimate_adjacency_matrix", "lingam/utils/__init__.py:predict_adaptive_lasso"]}
{"id": "C95", "title": "estimate_total_effect gives the total effect of the true model", "statement": "For data following the model with uncorrelated errors, estimate_total_effect (regression on the source and its parents) equals the sum over all directed paths of the products of coefficients, for every pair of variables, also when the destination comes before the source (then it is 0 in spite of the warning).", "quantifier": "for every acyclic model, data set and pair of variables; the estimated parents of the source may contain superfluous earlier variables", "why_tests_cant": "an identity for all data sets and graphs (back-door adjustment)", "anchors": ["lingam/base.py:_BaseLiNGAM.estimate_total_effect"]}
{"id": "C96", "title": "True prior knowledge never prevents finding the truth", "statement": "If every statement in the prior knowledge is true of the causal graph, the true graph can still be returned.", "quantifier": "for every true graph and every prior knowledge matrix true of it", "why_tests_cant": "needs the right combination of three variables and two no-path statements", "anchors": ["lingam/direct_lingam.py:DirectLiNGAM._extract_partial_orders", "lingam/direct_lingam.py:DirectLiNGAM._search_candidate"]}
{"id": "C97", "title": "Soft prior knowledge enters the comparison of candidates", "statement": "With soft prior knowledge, a remaining variable known to receive nothing from the candidates is compared with a candidate as it is, every other variable through its residual, for both measures.", "quantifier": "for every data set, prior knowledge and step", "why_tests_cant": "the branch is only taken for particular prior knowledge at particular steps, and does not change the shape of the result", "anchors": ["lingam/direct_lingam.py:DirectLiNGAM._search_causal_order", "lingam/direct_lingam.py:DirectLiNGAM._search_causal_order_kernel"]}
{"id": "C98", "title": "The result does not depend on the number type of the data", "statement": "fit gives the same causal order for the same numbers whether they are stored as integers or as floats.", "quantifier": "for every data set of integers", "why_tests_cant": "only data sets of integer type show it; all tests use floats", "anchors": ["lingam/direct_lingam.py:DirectLiNGAM.fit"]}
{"id": "C99", "title": "RCD recovers a model without hidden common causes", "statement": "If the data come from a linear acyclic model with independent non-Gaussian errors, no hidden common causes and no cancelling total effects, and every statistical test answers correctly, RCD with max_explanatory_num 1 or 2 (the default) stores exactly the causal ancestors in ancestors_list_ and the true coefficient matrix, without NaN, in adjacency_matrix_; the total effects computed from it are the true ones.", "quantifier": "for every such model with any number of variables and any error variances", "why_tests_cant": "correctness of the whole search over all models; tests use one simulated data set", "anchors": ["lingam/rcd.py:RCD.fit", "lingam/rcd.py:RCD._extract_ancestors", "lingam/rcd.py:RCD._is_parent", "lingam/rcd.py:RCD._estimate_adjacency_matrix"]}
{"id": "C100", "title": "RCD reports only true ancestors in the presence of hidden common causes", "statement": "If the data come from a linear acyclic model with independent non-Gaussian sources, some of them hidden common causes, and every test answers correctly, every variable listed in ancestors_list_ is a causal ancestor, every directed edge of adjacency_matrix_ starts at an ancestor and the directed edges have no cycle.", "quantifier": "for every such model, any number of hidden causes and any max_explanatory_num", "why_tests_cant": "quantifies over all models with hidden variables; needs exact tests", "anchors": ["lingam/rcd.py:RCD._extract_ancestors", "lingam/rcd.py:RCD._exists_ancestor_in_U"]}
{"id": "C101", "title": "Allowing RCD larger explanatory sets keeps its ancestors correct", "statement": "Raising max_explanatory_num never makes ancestors_list_ contain a variable that is not an ancestor, for correct tests.", "quantifier": "for every model and every max_explanatory_num", "why_tests_cant": "the wrong entries need particular graphs (three variables with a hidden cause, or five observed variables) and exact tests", "anchors": ["lingam/rcd.py:RCD._extract_ancestors"]}
{"id": "C102", "title": "The lag order is chosen by the criterion", "statement": "With an information criterion, fit of a fresh VARLiNGAM uses the number of lags from 1 to `lags`, and VARMALiNGAM the order other than (0, 0) up to `order`, whose criterion is defined and smallest, the first one in case of ties; without a criterion exactly the requested number of lags or order is used.", "quantifier": "for every series, maximal order and criterion values, including undefined ones", "why_tests_cant": "depends on ties and undefined criterion values, which simulated series do not produce", "anchors": ["lingam/var_lingam.py:VARLiNGAM._estimate_var_coefs", "lingam/varma_lingam.py:VARMALiNGAM._estimate_varma_coefs"]}
{"id": "C103", "title": "The bootstrap of the time series models analyses resamples like the original", "statement": "Every bootstrap repetition of VARLiNGAM and VARMALiNGAM gives the model that fit would give for the resampled series.", "quantifier": "for every series, resampling and number of repetitions", "why_tests_cant": "the adjacency matrices of a resample are never compared with those of an independent fit", "anchors": ["lingam/var_lingam.py:VARLiNGAM.bootstrap", "lingam/varma_lingam.py:VARMALiNGAM.bootstrap"]}
{"id": "C104", "title": "The total effects stored by the VAR bootstrap are complete", "statement": "For every repetition, the stored array has, for every pair of variables and every lag, the total effect from the lagged to the current variable whenever one is possible (later in the causal order, or lag of at least 1), and zero elsewhere.", "quantifier": "for every fitted model, number of variables and lags", "why_tests_cant": "an omitted or overwritten entry of the array looks like a missing effect", "anchors": ["lingam/var_lingam.py:VARLiNGAM.bootstrap"]}
{"id": "C105", "title": "VARMALiNGAM can be bootstrapped whenever it can be fitted", "statement": "If fit succeeds for a series and every resample, bootstrap succeeds, for every order including pure AR and pure MA models.", "quantifier": "for every series, order and number of repetitions", "why_tests_cant": "tests use order (1, 1) only", "anchors": ["lingam/varma_lingam.py:VARMALiNGAM.bootstrap"]}
{"id": "C106", "title": "Pruning of VARMALiNGAM regresses on the right past values", "statement": "With pruning, the reported coefficients of a variable are those of the regression on the earlier variables of the causal order at the same time, all variables at the AR lags and all errors at the MA lags, each stored in the matrix of its lag; other entries are zero.", "quantifier": "for every series, order and causal order", "why_tests_cant": "a shifted column or block gives plausible coefficients", "anchors": ["lingam/varma_lingam.py:VARMALiNGAM._pruning"]}
{"id": "C107", "title": "The local search of LiM is optimal among its moves", "statement": "The result of the second phase has a score not larger than that of every acyclic orientation of the edges of the first phase; not larger than that of every acyclic graph obtained by deleting one edge of the first phase when that has more edges than a tree; not larger than that of every acyclic graph obtained by adding one edge when it is not complete (with more than two variables). It never has edges in both directions between two variables if the first phase has none.", "quantifier": "for every number of variables, result of the first phase, tolerance and score that depends on the edges only", "why_tests_cant": "quantifies over all competing graphs", "anchors": ["lingam/lim.py:LiM.fit"]}
{"id": "C108", "title": "Shuffling the residuals only reorders the simulated rows", "statement": "With residual shuffling and no discrete variables, the simulated data are the data simulated without shuffling with the rows permuted; in particular, for the trained models they are the training rows in another order.", "quantifier": "for every graph, data, models that work row by row and every permutation", "why_tests_cant": "a test can only see that values changed, not that the joint distribution is the training data", "anchors": ["lingam/causal_based_simulator.py:CausalBasedSimulator.run"]}
{"id": "C109", "title": "Restating the fitted coefficients changes nothing", "statement": "Running the simulator with changed models that name, for a variable, exactly the coefficients of its trained linear model gives the same data as running it without changes.", "quantifier": "for every graph, data, linear model and variable", "why_tests_cant": "the difference is a constant shift that depends on the fitted intercept", "anchors": ["lingam/causal_based_simulator.py:CausalBasedSimulator.run"]}
{"id": "C110", "title": "The tuning scores use out-of-sample predictions", "statement": "In every fold the explanatory variables are chosen from the training rows only, and the predictions of a variable depend only on the training rows and the test values of its explanatory variables, which do not include the variable itself.", "quantifier": "for every data set, split, causal discovery method, regression method and configuration", "why_tests_cant": "leakage improves scores without any visible error", "anchors": ["lingam/experimental/oct.py:OutOfSampleCausalTuning.fit"]}
{"id": "C111", "title": "A larger tuning score means better predictions", "statement": "Scores are never negative; if the predictions of a configuration correlate at least as strongly with the true values in every variable, its score is at least as large; predictions that are perfect up to scale and shift have the largest possible score.", "quantifier": "for every data set, split and predictions with a defined score", "why_tests_cant": "quantifies over all predictions; swapped rows give plausible scores", "anchors": ["lingam/experimental/oct.py:OutOfSampleCausalTuning.fit"]}
{"id": "C112", "title": "LiNA's optimisation ends with a solution of the optimiser", "statement": "With a penalty limit above 1 and at least one pass, LiNA's estimation ends without an exception and gives a thresholded solution of the optimiser. Before thresholding the solution meets the tolerance, or its penalty is within a factor 10 of the limit, or all passes were used and each reduced the violation of acyclicity to a quarter or less. If the first solution meets the tolerance it is the result.", "quantifier": "for every optimiser, tolerance, limit, threshold and number of passes", "why_tests_cant": "depends on all possible answers of an external optimiser", "anchors": ["lingam/lina.py:LiNA._estimate_LiNA", "lingam/lina.py:MDLiNA"]}
{"id": "C113", "title": "The HSIC test treats both variables alike", "statement": "hsic_test_gamma(X, Y) and hsic_test_gamma(Y, X) give the same statistic and the same p-value.", "quantifier": "for every number of observations and columns and all data", "why_tests_cant": "real-valued data; a test can only compare samples", "anchors": ["lingam/hsic.py:hsic_test_gamma"]}
{"id": "C114", "title": "The HSIC test does not depend on units of measurement", "statement": "Shifting the columns of a variable and rescaling it by a nonzero factor changes neither the statistic nor the p-value of hsic_test_gamma.", "quantifier": "for all data, shifts and nonzero factors", "why_tests_cant": "quantifies over all data and factors", "anchors": ["lingam/hsic.py:hsic_test_gamma", "lingam/hsic.py:get_kernel_width"]}
{"id": "C115", "title": "The HSIC test does not depend on the order of the observations", "statement": "Reordering the observations of both variables in the same way changes neither the statistic nor the p-value of hsic_test_gamma.", "quantifier": "for all data and permutations of the observations", "why_tests_cant": "the violation needs more than 100 observations in a particular order", "anchors": ["lingam/hsic.py:hsic_test_gamma", "lingam/hsic.py:get_kernel_width"]}
{"id": "C116", "title": "The HSIC test computes the criterion and the matching gamma approximation", "statement": "A reported statistic is n times the biased estimate of the Hilbert-Schmidt criterion with Gaussian kernels whose squared width is half the median squared distance between the first 100 observations, and it is never negative. A reported p-value is the tail probability at the statistic of a gamma distribution with positive parameters that has the mean and the variance of the approximation by Gretton et al., so it lies between 0 and 1.", "quantifier": "for all data for which a value is reported", "why_tests_cant": "the sign of the statistic rests on positive definiteness of the kernel for all data", "anchors": ["lingam/hsic.py:hsic_test_gamma", "lingam/hsic.py:get_gram_matrix", "lingam/hsic.py:hsic_teststat"]}
{"id": "C117", "title": "When the HSIC test has no answer", "statement": "hsic_test_gamma raises exactly for at most three observations. The p-value is NaN for four and five observations whatever the data are. The statistic is NaN exactly if one of the variables is constant over the first 100 observations, even if it varies later.", "quantifier": "for all data", "why_tests_cant": "boundary cases for all data", "anchors": ["lingam/hsic.py:hsic_test_gamma", "lingam/hsic.py:get_kernel_width"]}
{"id": "C118", "title": "The high-dimensional method ends with a complete order and an acyclic matrix", "statement": "HighDimDirectLiNGAM.fit always ends. Every column is exactly once in causal_order_, and adjacency_matrix_, if it was asked for, has nonzero entries only from earlier to later columns, so it is acyclic. Each row is the adaptive Lasso of that column on all earlier ones, with the cross-validated Lasso exactly if there are no more rows than columns.", "quantifier": "for all data, parameters and results of the numerical routines", "why_tests_cant": "termination and shape for all inputs", "anchors": ["lingam/high_dim_direct_lingam.py:HighDimDirectLiNGAM.fit"]}
{"id": "C119", "title": "The first variable of the high-dimensional method", "statement": "With at least two variables the first entry of causal_order_ is a variable whose largest moment statistic with any other variable, cut off at 100000, is smallest. If there are several, it is the leftmost column.", "quantifier": "for all data and parameters", "why_tests_cant": "ties and the cut-off matter only for special data", "anchors": ["lingam/high_dim_direct_lingam.py:HighDimDirectLiNGAM.fit", "lingam/high_dim_direct_lingam.py:HighDimDirectLiNGAM._calc_tau"]}
{"id": "C120", "title": "The order of the high-dimensional method does not depend on units of measurement", "statement": "Multiplying the columns of X by positive constants, or adding constants to them, does not change causal_order_ of HighDimDirectLiNGAM. Changing the signs of columns does not change it either.", "quantifier": "for all data and all factors", "why_tests_cant": "quantifies over all data and factors", "anchors": ["lingam/high_dim_direct_lingam.py:HighDimDirectLiNGAM.fit", "lingam/high_dim_direct_lingam.py:HighDimDirectLiNGAM._calc_taus"]}
{"id": "C121", "title": "The high-dimensional method recovers the order for exactly independent errors", "statement": "If the data follow an acyclic linear model whose errors are independent in the sample (in the moments the method uses) and every omitted cause leaves a nonzero statistic, causal_order_ of HighDimDirectLiNGAM puts every cause before its effects.", "quantifier": "for all acyclic models, data and parameters", "why_tests_cant": "a statement about all models and all samples", "anchors": ["lingam/high_dim_direct_lingam.py:HighDimDirectLiNGAM.fit"]}
{"id": "C122", "title": "The high-dimensional method tries all sets of possible parents", "statement": "In every step HighDimDirectLiNGAM takes the smallest statistic of a variable over all sets of J possible parents that contain the last ordered variable.", "quantifier": "for all states of the search", "why_tests_cant": "the result of a run does not show which sets were tried", "anchors": ["lingam/high_dim_direct_lingam.py:HighDimDirectLiNGAM._calc_taus", "lingam/high_dim_direct_lingam.py:HighDimDirectLiNGAM._get_prune_stats"]}
{"id": "C123", "title": "make_dot draws exactly the relations above the limit", "statement": "make_dot draws every square matrix with one label per variable. It has one node per variable. For every entry whose absolute value exceeds lower_limit there is exactly one arrow, from the column (cause) to the row (effect), with that coefficient, and for other entries there is none. An entry equal to lower_limit is not drawn.", "quantifier": "for all matrices, limits and options", "why_tests_cant": "direction and multiplicity for all matrices", "anchors": ["lingam/utils/__init__.py:make_dot"]}
{"id": "C124", "title": "make_dot shows every unknown direction", "statement": "For every pair of variables with a NaN entry make_dot draws exactly one double-headed arrow, and no double-headed arrow for other pairs.", "quantifier": "for all matrices", "why_tests_cant": "the pattern of NaN entries is arbitrary", "anchors": ["lingam/utils/__init__.py:make_dot"]}
{"id": "C125", "title": "make_dot marks paths and cycles", "statement": "With path=(s, t) an arrow of make_dot is emphasised exactly if it is part of a path from s to t without repeated variables, and a node exactly if it is on such a path. The nodes s and t have a double border. With detect_cycle=True an arrow is dashed exactly if it lies on a directed cycle.", "quantifier": "for all matrices, limits and paths", "why_tests_cant": "quantifies over all graphs and all their paths and cycles", "anchors": ["lingam/utils/__init__.py:make_dot"]}
{"id": "C126", "title": "make_dot_highlight places variables by their distance from the target", "statement": "A variable is in the cluster 'descendant k' of make_dot_highlight exactly if the shortest directed path from the target to it has k arrows and k is at most max_dsc, and in 'ancestor k' exactly if the shortest path from it to the target has k arrows and k is at most max_anc. The remaining variables are in 'others' if draw_others is set and are left out otherwise. An arrow is drawn between two drawn variables exactly if the matrix has an entry there that reaches the limit.", "quantifier": "for all matrices, targets and limits", "why_tests_cant": "distances in all graphs", "anchors": ["lingam/utils/__init__.py:make_dot_highlight"]}
{"id": "C127", "title": "make_dot_highlight draws every variable once", "statement": "With draw_others every variable is drawn exactly once by make_dot_highlight.", "quantifier": "for all acyclic matrices and targets", "why_tests_cant": "special positions of the target matter", "anchors": ["lingam/utils/__init__.py:make_dot_highlight"]}
{"id": "C128", "title": "make_dot_highlight shows the same relations as make_dot", "statement": "For the same matrix and the same lower_limit, make_dot_highlight with draw_others shows the same arrows with the same coefficients as make_dot, and double-headed arrows for unknown directions.", "quantifier": "for all matrices and limits", "why_tests_cant": "two functions are compared on all inputs", "anchors": ["lingam/utils/__init__.py:make_dot_highlight", "lingam/utils/__init__.py:make_dot"]}
{"id": "C129", "title": "make_dot_highlight marks paths and cycles", "statement": "With path=(s, t) make_dot_highlight emphasises exactly the arrows and the nodes on paths from s to t without repeated variables, and draws exactly s and t with a double border. With detect_cycle=True exactly the arrows on directed cycles are dashed.", "quantifier": "for all matrices, limits and paths", "why_tests_cant": "quantifies over all graphs and all their paths and cycles", "anchors": ["lingam/utils/__init__.py:make_dot_highlight"]}
{"id": "C130", "title": "remove_effect leaves what least squares cannot explain", "statement": "remove_effect(X, S) leaves the columns in S unchanged and replaces every other column by its least squares residual on the columns in S with intercept: the result has mean zero, is uncorrelated with every removed feature, and the returned coefficients are those of the regression. Applying it twice, or listing the features in another order or repeatedly, gives the same result.", "quantifier": "for all data and all sets of features", "why_tests_cant": "a statement about all data; the element type of the array matters", "anchors": ["lingam/utils/__init__.py:remove_effect"]}
{"id": "C131", "title": "remove_effect keeps the causal model of the other variables", "statement": "If X follows a linear model, the other columns after remove_effect follow the model with the same coefficients among them, with errors that are the residuals of the original errors. Errors uncorrelated with the removed features are unchanged.", "quantifier": "for all linear models, data and sets of features", "why_tests_cant": "quantifies over all models and data", "anchors": ["lingam/utils/__init__.py:remove_effect"]}
{"id": "C132", "title": "likelihood_i in other units and with other origins", "statement": "Measuring the variables in other units, with the coefficients converted, changes likelihood_i by minus the number of observations times the logarithm of the factor of variable i. Moving the origins, with the intercept converted, does not change it. There is no value (NaN) exactly if the variable is a linear combination with these coefficients plus a constant.", "quantifier": "for all data, coefficients, units and origins", "why_tests_cant": "quantifies over all data, coefficients and units", "anchors": ["lingam/utils/__init__.py:likelihood_i", "lingam/utils/__init__.py:variance_i"]}
{"id": "C133", "title": "log_p_super_gaussian is the logarithm of a density", "statement": "The exponential of log_p_super_gaussian integrates to one, and likelihood_i is the log-likelihood of Laplace distributed errors with the empirical standard deviation.", "quantifier": "for all data and coefficients", "why_tests_cant": "an integral over the real line", "anchors": ["lingam/utils/__init__.py:log_p_super_gaussian", "lingam/utils/__init__.py:likelihood_i"]}
{"id": "C134", "title": "evaluate_model_fit evaluates the given graph", "statement": "The model evaluated by evaluate_model_fit has one equation for every variable with a relation, whose terms are one fixed coefficient for every entry that is not close to zero and one latent variable for every NaN. Every pair with a NaN has one latent variable, shared by both variables if both entries are NaN. The variables flagged with 1 in is_ordinal are declared ordinal, no others.", "quantifier": "for all matrices with NaN entries and all flags", "why_tests_cant": "quantifies over all patterns of entries", "anchors": ["lingam/utils/__init__.py:evaluate_model_fit"]}
{"id": "C135", "title": "evaluate_model_fit evaluates the given coefficients", "statement": "The fixed coefficients of the model evaluated by evaluate_model_fit are the entries of the matrix.", "quantifier": "for all matrices", "why_tests_cant": "very small and very precise entries matter", "anchors": ["lingam/utils/__init__.py:evaluate_model_fit"]}
{"id": "C136", "title": "LiM's graph score is a sum over the variables", "statement": "The score by which LiM compares graphs in its second phase depends on which coefficients are zero only. Changing the causes of one variable changes the score by an amount that depends only on its old and new causes and not on the rest of the graph.", "quantifier": "for all data and all graphs", "why_tests_cant": "quantifies over all graphs and all data", "anchors": ["lingam/lim.py:LiM._estimate_LiM"]}
{"id": "C137", "title": "LiM scores count variables by their Poisson likelihood", "statement": "With is_poisson=True a count variable with causes enters the score of a graph with its Poisson log-likelihood given all its causes.", "quantifier": "for all data and all graphs", "why_tests_cant": "the sign and the set of causes are not visible in the selected graph", "anchors": ["lingam/lim.py:LiM._estimate_LiM"]}
{"id": "C138", "title": "LiM scores discrete variables without causes by the largest likelihood", "statement": "A discrete variable without causes enters the score of a graph with the largest log-likelihood that any distribution of its values has.", "quantifier": "for all data and all distributions", "why_tests_cant": "a maximum over all distributions", "anchors": ["lingam/lim.py:LiM._estimate_LiM"]}
{"id": "C139", "title": "The comparison of graphs does not depend on units and origins of continuous data", "statement": "For continuous data, linear changes of units and origins of the variables change the score of every graph by the same amount, so the same graph wins.", "quantifier": "for all data, graphs, units and origins", "why_tests_cant": "quantifies over all data, graphs and units", "anchors": ["lingam/lim.py:LiM._estimate_LiM", "lingam/utils/__init__.py:likelihood_i"]}
{"id": "C140", "title": "DirectLiNGAM with the default measure does not depend on units, origins and signs", "statement": "Multiplying the columns by non-zero numbers and adding constants does not change the causal order, with or without prior knowledge; if the selection of causes stays the same, the least squares coefficients are converted to the new units.", "quantifier": "for all data, numbers of variables and rows, factors, constants and prior knowledge", "why_tests_cant": "quantifies over all data, units and origins", "anchors": ["lingam/direct_lingam.py:DirectLiNGAM.fit", "lingam/direct_lingam.py:DirectLiNGAM._search_causal_order"]}
{"id": "C141", "title": "DirectLiNGAM with the default measure does not depend on the order of the rows", "statement": "Reordering the rows, or repeating every row the same number of times, does not change the causal order.", "quantifier": "for all data, reorderings, numbers of repetitions and prior knowledge", "why_tests_cant": "quantifies over all data and reorderings", "anchors": ["lingam/direct_lingam.py:DirectLiNGAM.fit", "lingam/direct_lingam.py:DirectLiNGAM._search_causal_order"]}
{"id": "C142", "title": "DirectLiNGAM does not depend on the order of the columns", "statement": "Reordering the columns of the data lists the same variables in the same causal order.", "quantifier": "for all data and reorderings of the columns, without prior knowledge", "why_tests_cant": "quantifies over all data and reorderings", "anchors": ["lingam/direct_lingam.py:DirectLiNGAM.fit", "lingam/direct_lingam.py:DirectLiNGAM._search_causal_order"]}
{"id": "C143", "title": "For two variables DirectLiNGAM compares the two directions by mutual information", "statement": "For two columns that are not collinear, the first is declared the cause exactly if the approximate mutual information between it and the residual of the second is not larger than for the opposite direction, computed on standardised data; exchanging the columns changes the sign of the difference.", "quantifier": "for all pairs of columns", "why_tests_cant": "quantifies over all real data", "anchors": ["lingam/direct_lingam.py:DirectLiNGAM._search_causal_order", "lingam/direct_lingam.py:DirectLiNGAM._diff_mutual_info", "lingam/direct_lingam.py:DirectLiNGAM._entropy"]}
{"id": "C144", "title": "DirectLiNGAM's order takes the variable with the least evidence against it, then repeats on residuals", "statement": "For columns that are linearly independent together with the constant, an order is always found, and each variable in it has the smallest sum of squared differences against it (over the variables that are better causes of it than it is of them) among the remaining variables, where the linear dependence on the earlier variables has been removed from these.", "quantifier": "for all data and numbers of variables, without prior knowledge", "why_tests_cant": "quantifies over all real data and follows the search through all its steps", "anchors": ["lingam/direct_lingam.py:DirectLiNGAM.fit", "lingam/direct_lingam.py:DirectLiNGAM._search_causal_order", "lingam/direct_lingam.py:DirectLiNGAM._residual"]}
{"id": "C145", "title": "F-correlation does not depend on units, origins, signs and the order of its arguments", "statement": "f_correlation returns the same value after linear changes of the units of its arguments, including changes of sign, and after exchanging them.", "quantifier": "for all pairs of samples of equal length, factors and constants", "why_tests_cant": "quantifies over all real samples and units", "anchors": ["lingam/utils/_f_correlation.py:f_correlation"]}
{"id": "C146", "title": "F-correlation returns a value for every two samples that are not constant", "statement": "f_correlation returns a value for every two samples of equal length that are not constant, and the value depends on both.", "quantifier": "for all samples and sample sizes", "why_tests_cant": "failures depend on the sample size and on rare values", "anchors": ["lingam/utils/_f_correlation.py:f_correlation", "lingam/utils/_f_correlation.py:_svd"]}
{"id": "C147", "title": "F-correlation is the largest regularised kernel correlation, at least zero and below one", "statement": "The value of f_correlation is the largest regularised correlation (Bach and Jordan) for two matrices that lie below the centred Gram matrices of the standardised samples by at most n/2500 (n/25000 for more than 1000 observations); it is at least zero and below one. The incomplete Cholesky decomposition always ends.", "quantifier": "for all samples and sample sizes for which a value is returned", "why_tests_cant": "a maximum over all functions, for all real samples", "anchors": ["lingam/utils/_f_correlation.py:f_correlation", "lingam/utils/_f_correlation.py:_incomplete_cholesky", "lingam/utils/_f_correlation.py:_svd"]}
{"id": "C148", "title": "F-correlation accepts arrays with several columns", "statement": "f_correlation, to which CAM-UV with independence='fcorr' passes arrays with several columns when num_explanatory_vals is at least three, accepts arrays with one or more columns.", "quantifier": "for all numbers of observations and columns", "why_tests_cant": "quantifies over all shapes", "anchors": ["lingam/utils/_f_correlation.py:_squared_dist", "lingam/utils/_f_correlation.py:_incomplete_cholesky", "lingam/camuv.py:CAMUV._get_child"]}
{"id": "C149", "title": "BottomUpParceLiNGAM with right tests is correct in spite of hidden common causes", "statement": "On data from a linear model with independent non-Gaussian sources, with any hidden causes and no total effect of an ancestor that cancels, if every test answers correctly: causal_order_ places every cause before its effects except among the variables left unresolved; the row of every resolved variable in adjacency_matrix_ is its true row; the unresolved variables are exactly the largest set in which each is a cause of another or has a hidden cause affecting another. Without hidden common causes everything is resolved and the matrix is the true one.", "quantifier": "for all linear models, hidden causes, thresholds and measures of independence", "why_tests_cant": "the truth of a hidden cause cannot be observed and tests use finite samples", "anchors": ["lingam/bottom_up_parce_lingam.py:BottomUpParceLiNGAM.fit", "lingam/bottom_up_parce_lingam.py:BottomUpParceLiNGAM._search_causal_order", "lingam/bottom_up_parce_lingam.py:BottomUpParceLiNGAM._find_exo_vec", "lingam/bottom_up_parce_lingam.py:BottomUpParceLiNGAM._estimate_adjacency_matrix"]}
{"id": "C150", "title": "True prior knowledge does not spoil the result of BottomUpParceLiNGAM", "statement": "If every test answers correctly and every entry of prior_knowledge is true, the result of BottomUpParceLiNGAM is still right and at least as much is resolved as without prior knowledge.", "quantifier": "for all linear models and all true prior knowledge", "why_tests_cant": "quantifies over all models and all knowledge matrices", "anchors": ["lingam/bottom_up_parce_lingam.py:BottomUpParceLiNGAM._search_candidate", "lingam/bottom_up_parce_lingam.py:BottomUpParceLiNGAM._find_exo_vec"]}
{"id": "C151", "title": "Total effects of BottomUpParceLiNGAM are the true ones for resolved sources and NaN for the others", "statement": "On data as in C149, if every test and every regression answers correctly, estimate_total_effect and estimate_total_effect2 return, for a source that is resolved, the true total effect on every other variable, resolved or not and whatever the hidden causes; for an unresolved source they return NaN. A hidden cause of a resolved variable acts on no other variable.", "quantifier": "for all linear models, hidden causes, thresholds, sources and destinations", "why_tests_cant": "hidden causes cannot be observed, and the statement is about all models", "anchors": ["lingam/bottom_up_parce_lingam.py:BottomUpParceLiNGAM.estimate_total_effect", "lingam/bottom_up_parce_lingam.py:BottomUpParceLiNGAM.estimate_total_effect2", "lingam/utils/__init__.py:calculate_total_effect"]}
{"id": "C152", "title": "The bootstrap of BottomUpParceLiNGAM stores the total effects that estimate_total_effect2 returns", "statement": "For every bootstrap sample the total effect stored for two different variables is the value estimate_total_effect2 returns for them; an effect that cannot be determined is NaN and not zero.", "quantifier": "for all results of fit and all pairs of variables", "why_tests_cant": "quantifies over all outcomes of the tests", "anchors": ["lingam/bottom_up_parce_lingam.py:BottomUpParceLiNGAM.bootstrap", "lingam/bottom_up_parce_lingam.py:BottomUpParceLiNGAM.estimate_total_effect2"]}
{"id": "C153", "title": "VARLiNGAM recovers the structural matrices of the series", "statement": "If the series follows structural equations with instantaneous and lagged causes up to the number of lags used, the errors are orthogonal to the past, the past values are linearly independent and the LiNGAM model is right on the residuals, adjacency_matrices_ holds exactly the true matrices of all lags, without pruning and with it (if the regression with selection keeps the true causes). The default DirectLiNGAM is right on the residuals if its pairwise statistic is.", "quantifier": "for all series, numbers of variables and lags, LiNGAM models and regressions with selection", "why_tests_cant": "the true matrices are unknown for real data, and a simulation checks only its own few matrices up to sampling error", "anchors": ["lingam/var_lingam.py:VARLiNGAM.fit", "lingam/var_lingam.py:VARLiNGAM._estimate_var_coefs", "lingam/var_lingam.py:VARLiNGAM._calc_b", "lingam/var_lingam.py:VARLiNGAM._pruning"]}
{"id": "C154", "title": "The result of VARLiNGAM does not depend on the origin of measurement", "statement": "Adding a constant to a column of X (temperature in Kelvin instead of Celsius) changes neither causal_order_ nor adjacency_matrices_.", "quantifier": "for all series and all constants", "why_tests_cant": "quantifies over all series and all shifts", "anchors": ["lingam/var_lingam.py:VARLiNGAM.fit", "lingam/var_lingam.py:VARLiNGAM._estimate_var_coefs", "lingam/var_lingam.py:VARLiNGAM._calc_residuals", "lingam/var_lingam.py:VARLiNGAM._pruning"]}
{"id": "C155", "title": "LongitudinalLiNGAM recovers the structural matrices of every time point", "statement": "If the data of every time point from n_lags on follow structural equations with the instantaneous and lagged causes, the errors are uncorrelated with the time points before, the earlier values are linearly independent and the regressions and DirectLiNGAM are right, adjacency_matrices_[t, k] holds the true effects of lag k at time t, and causal_orders_[t] puts causes before effects.", "quantifier": "for all panels, numbers of time points, samples, variables and lags", "why_tests_cant": "the true matrices are unknown for real data, and a simulation checks only a few of them up to sampling error", "anchors": ["lingam/longitudinal_lingam.py:LongitudinalLiNGAM.fit", "lingam/longitudinal_lingam.py:LongitudinalLiNGAM._compute_residuals", "lingam/longitudinal_lingam.py:LongitudinalLiNGAM._estimate_instantaneous_effects", "lingam/longitudinal_lingam.py:LongitudinalLiNGAM._estimate_lagged_effects"]}
{"id": "C156", "title": "MultiGroupDirectLiNGAM recovers the model of every group", "statement": "If each data set follows its own linear acyclic model with uncorrelated errors (edges and coefficients may differ, but all edges together with the hard prior knowledge have no cycle, and no zero of it denies a true edge), and the pairwise statistic and the regressions are right for each data set, fit succeeds, causal_order_ puts causes before effects in every data set, adjacency_matrices_[k] is the true matrix of data set k and estimate_total_effect returns the true total effect for each data set.", "quantifier": "for all lists of data sets, sample sizes, numbers of variables, models and prior knowledge", "why_tests_cant": "the true models are unknown for real data, and a simulation checks only a few lists of them up to sampling error", "anchors": ["lingam/multi_group_direct_lingam.py:MultiGroupDirectLiNGAM.fit", "lingam/multi_group_direct_lingam.py:MultiGroupDirectLiNGAM._search_causal_order", "lingam/multi_group_direct_lingam.py:MultiGroupDirectLiNGAM.estimate_total_effect"]}
{"id": "C157", "title": "RESIT finds a causal order when its dependence statistic is right", "statement": "If among variables that include the causes of all of them the dependence statistic is smaller for variables without effects than for the others (as for a linear model without hidden causes, non-Gaussian errors, a linear regressor and a statistic that is smaller for independent residuals), causal_order_ puts every cause before its effects.", "quantifier": "for all acyclic models, numbers of variables and statistics", "why_tests_cant": "the true order is unknown for real data; simulations check a few models only", "anchors": ["lingam/resit.py:RESIT.fit", "lingam/resit.py:RESIT._estimate_order"]}
{"id": "C158", "title": "RESIT reports exactly the true edges when its tests are right", "statement": "For a linear model without hidden causes with non-Gaussian errors, a linear regressor and independence tests that answer correctly, adjacency_matrix_ has a 1 exactly where the variable of the column is a direct cause of the variable of the row.", "quantifier": "for all linear acyclic models, numbers of variables and right tests", "why_tests_cant": "the true edges are unknown for real data; simulations cannot separate errors of the tests from errors of the removal step", "anchors": ["lingam/resit.py:RESIT.fit", "lingam/resit.py:RESIT._remove_edges"]}
{"id": "C159", "title": "LongitudinalBootstrapResult counts directions, graphs and probabilities consistently per time point", "statement": "get_causal_direction_counts, get_directed_acyclic_graph_counts and get_probabilities describe every time point separately: column lag * n_features + from stands for variable from at that lag; a direction's count is the number of samples that contain it above the threshold, listed by decreasing count and without omissions (up to the limit asked for), graphs are grouped exactly by their edges at all lags, a count divided by the number of samples is the entry [t, lag, to, from] of get_probabilities, and time points without estimates contribute nothing.", "quantifier": "for all lists of samples, numbers of time points, lags and variables, thresholds and limits", "why_tests_cant": "quantifies over all contents of the result object, with ties sorted in any way", "anchors": ["lingam/longitudinal_lingam.py:LongitudinalBootstrapResult.get_causal_direction_counts", "lingam/longitudinal_lingam.py:LongitudinalBootstrapResult.get_directed_acyclic_graph_counts", "lingam/longitudinal_lingam.py:LongitudinalBootstrapResult.get_probabilities"]}
{"id": "C160", "title": "Total effects summarised by LongitudinalBootstrapResult are medians of the counted samples", "statement": "get_total_causal_effects lists exactly the pairs (variable at a time point, variable at a time point) whose total effect exceeds the threshold in some sample; the probability is the fraction of those samples and the effect the median over those samples.", "quantifier": "for all lists of samples, numbers of time points and variables, thresholds", "why_tests_cant": "quantifies over all contents of the result object", "anchors": ["lingam/longitudinal_lingam.py:LongitudinalBootstrapResult.get_total_causal_effects"]}
{"id": "C161", "title": "LongitudinalBootstrapResult.get_paths lists exactly the paths over time with their frequency and median effect", "statement": "For acyclic instantaneous graphs get_paths returns every directed path over time between the two variables at the two time points that occurs in some sample, once, as node numbers counted from the start time; the probability is the fraction of the samples that contain it and the effect the median over those samples. Requests against time or from a variable to itself are refused.", "quantifier": "for all lists of samples with acyclic instantaneous matrices, time points, variables, lags and thresholds", "why_tests_cant": "quantifies over all graphs; the number of paths is exponential", "anchors": ["lingam/longitudinal_lingam.py:LongitudinalBootstrapResult.get_paths"]}
{"id": "C162", "title": "get_error_independence_p_values of the time series models tests the errors of the reported equations", "statement": "For VARLiNGAM, VARMALiNGAM and LongitudinalLiNGAM the entry (i, j) is the p-value of the test between the errors of variable i and variable j in the structural equations given by adjacency_matrices_, one value per time (or per sample of a time point); the matrix is symmetric with a zero diagonal. If the true matrices were recovered, the tested columns are the true errors.", "quantifier": "for all data, fits, numbers of variables and lags, and all independence tests", "why_tests_cant": "needs the tested columns to equal the errors of the reported equations for every series, not the p-values of one data set", "anchors": ["lingam/var_lingam.py:VARLiNGAM.get_error_independence_p_values", "lingam/varma_lingam.py:VARMALiNGAM.get_error_independence_p_values", "lingam/longitudinal_lingam.py:LongitudinalLiNGAM.get_error_independence_p_values"]}
{"id": "C163", "title": "get_error_independence_p_values of the multi-group models tests each data set with its own matrix", "statement": "The result has one matrix per data set, in the order of the list given to fit; it is symmetric with a zero diagonal and its entry (i, j) is the p-value of the test between the residuals of variables i and j of this data set under the matrix of this data set. For MultiGroupRCD an entry is NaN exactly if one of the two variables touches a NaN of that matrix.", "quantifier": "for all lists of data sets of any sizes, all matrices and all independence tests", "why_tests_cant": "quantifies over all numbers and sizes of data sets and all patterns of NaN", "anchors": ["lingam/multi_group_direct_lingam.py:MultiGroupDirectLiNGAM.get_error_independence_p_values", "lingam/multi_group_rcd.py:MultiGroupRCD.get_error_independence_p_values"]}
{"id": "C164", "title": "MultiGroupDirectLiNGAM.bootstrap stores for each data set the matrices of the joint fits and their own total effects", "statement": "bootstrap(X_list, n) returns one result per data set, in the order of the list. Result i has exactly n samples; sample s is the adjacency matrix of data set i in the s-th joint fit together with the total effects of that same matrix (off the diagonal the entries of the inverse of I - B, zero on the diagonal). Without prior knowledge this never fails; fewer than two data sets or n <= 0 raise ValueError.", "quantifier": "for all numbers of data sets, samples and variables and all outcomes of the joint fits", "why_tests_cant": "quantifies over all numbers of data sets and samples; mixing up data set and sample or keeping effects of an earlier order needs specific fits to show", "anchors": ["lingam/multi_group_direct_lingam.py:MultiGroupDirectLiNGAM.bootstrap", "lingam/multi_group_direct_lingam.py:MultiGroupDirectLiNGAM.estimate_total_effect2"]}
{"id": "C165", "title": "MultiGroupRCD.estimate_total_effect returns one effect per data set", "statement": "For a source variable, the result has one value per data set: the coefficient of the source in the regression of the target on the source and its parents in the matrix of that data set, or NaN if the source shares a latent confounder (as RCD does).", "quantifier": "for all lists of data sets, matrices and regressions", "why_tests_cant": "quantifies over all patterns of latent confounders found by the joint fit", "anchors": ["lingam/multi_group_rcd.py:MultiGroupRCD.estimate_total_effect"]}
{"id": "C166", "title": "The kernel measure of DirectLiNGAM is a well-defined measure of dependence", "statement": "With measure='kernel' the dependence of two variables is a finite number for every sample: no logarithm of zero is taken, the value is -1/2 times the logarithm of the regularised kernel generalised variance (Bach and Jordan), it is never negative, it is the same for (x, y) and (y, x), and it does not change with the order of the rows, the origin or the orientation of the variables. It is zero if one of the variables is constant.", "quantifier": "for all sample sizes, all samples and all positive regularisation constants", "why_tests_cant": "quantifies over all real samples of all sizes; finiteness rests on positive definiteness, the sign on a determinant inequality", "anchors": ["lingam/direct_lingam.py:DirectLiNGAM._mutual_information", "lingam/direct_lingam.py:DirectLiNGAM._search_causal_order_kernel"]}
{"id": "C167", "title": "LiNA and MDLiNA estimate the graph on the right factors", "statement": "fit computes least squares factor scores from the loadings of the factor analysis and rescales them. If the measurements follow the measurement model exactly and the loadings are those of the factors at unit scale, the graph is estimated on exactly the true factors. For MDLiNA this holds for a scale argument of the documented shape (1, number of factors of all domains) and for every number of domains.", "quantifier": "for all numbers of samples, measurements, factors and domains, all loadings of full rank and all nonzero scales", "why_tests_cant": "quantifies over all data that follow the model and all shapes of the scale argument", "anchors": ["lingam/lina.py:LiNA.fit", "lingam/lina.py:MDLiNA.fit"]}
{"id": "C168", "title": "MDLiNA renumbers the shared factors by a one-to-one greedy matching", "statement": "With two domains, MDLiNA matches the shared factors with the factors of the domains by repeatedly taking the strongest remaining link; every shared factor and every factor is used exactly once, and the reported graph is the estimated graph with the factors renumbered in this way. In particular it is acyclic if the estimated one is.", "quantifier": "for all estimated link matrices and graphs and all numbers of factors", "why_tests_cant": "quantifies over all real link matrices including ties and zeros, and over all numbers of factors", "anchors": ["lingam/lina.py:MDLiNA.fit"]}
{"id": "C169", "title": "MDLiNA's alternating estimation ends with a result", "statement": "fit repeats the two estimation steps until the objective settles: it ends in the first round whose objective changed by less than 0.1, or (from round 30) is less than 0.1 above the best so far, or (from round 50) above the best of recent rounds. It always ends with a result, after at most 30 rounds if the objective never rises; the graph reported is the one of that round, or of the round before if that has no edge.", "quantifier": "for all sequences of objective values and estimates", "why_tests_cant": "the number of rounds depends on the objective values, which a test cannot exhaust", "anchors": ["lingam/lina.py:MDLiNA.fit"]}
{"id": "C170", "title": "MDLiNA keeps the best solution for the links of the shared factors", "statement": "The link matrix is the best solution found over the passes of the optimiser, with entries below the threshold set to zero.", "quantifier": "for all numbers of passes, tolerances and all solutions and scores of the optimiser", "why_tests_cant": "depends on the order of the scores over random restarts", "anchors": ["lingam/lina.py:MDLiNA._estimate_MDLiNA_H"]}
{"id": "C171", "title": "MDLiNA's links of the shared factors are optimised with the gradient of the loss", "statement": "For the links between the factors of the domains and the shared factors, MDLiNA minimises a loss with a quasi-Newton method. The matrix handed over as its gradient is the gradient of the loss at every point where the loss is defined.", "quantifier": "for all factor scores, all link matrices of full rank and all numbers of samples, factors and shared factors", "why_tests_cant": "a statement about all points and all directions; numeric tests compare a few points", "anchors": ["lingam/lina.py:MDLiNA._estimate_MDLiNA_H"]}
{"id": "C172", "title": "MDLiNA's penalised objective for the links has a best solution", "statement": "The objective for the links is the loss plus lambda1 times the sum of the absolute links; it is bounded below, so that the minimisation is well posed, and its gradient can become small.", "quantifier": "for all factor scores, adjacency matrices, positive penalties and link matrices", "why_tests_cant": "unboundedness is a statement about arbitrarily large arguments", "anchors": ["lingam/lina.py:MDLiNA._estimate_MDLiNA_H"]}
{"id": "C173", "title": "MDLiNA can be fitted with the loss laplace only", "statement": "With at least two shared factors and at least two domains, every other value of loss_type (among them l2, logistic and poisson, which LiNA accepts) makes fit raise an exception, whatever the data; the loss laplace can be evaluated at every link matrix of full rank.", "quantifier": "for all loss types, data, numbers of samples and factors, all random starts and numbers of passes", "why_tests_cant": "the start is random and the data arbitrary", "anchors": ["lingam/lina.py:MDLiNA._estimate_MDLiNA_H", "lingam/lina.py:MDLiNA.fit"]}
{"id": "C174", "title": "visualize_nonlinear_causal_effect adjusts for the parents of the cause", "statement": "For every adjacency matrix that a causal discovery method of the package returns, the regression behind the plotted curve uses the cause and its parents in the given graph; for linear data, the graph of the data and a least squares estimator the curve is the straight line whose slope is the total effect.", "quantifier": "for all numbers of variables and samples, all graphs, data sets, estimators and positions", "why_tests_cant": "quantifies over all graphs, coefficients and data; a test with a 0/1 matrix cannot show what happens with estimated coefficients", "anchors": ["lingam/utils/_visualize_nonlinear_causal_effect.py:visualize_nonlinear_causal_effect", "lingam/utils/_visualize_nonlinear_causal_effect.py:_calculate"]}
{"id": "C175", "title": "visualize_nonlinear_causal_effect uses every bootstrap sample and every row", "statement": "For a bootstrap result there is, for every position and class, one value per bootstrap sample, the mean prediction of a model trained on the rows of that sample with the cause set to the position; for a single adjacency matrix all rows of the data frame are used, whatever their labels.", "quantifier": "for all bootstrap results, data frames, estimators, classes and positions", "why_tests_cant": "quantifies over all numbers of samples and all labels of the rows", "anchors": ["lingam/utils/_visualize_nonlinear_causal_effect.py:visualize_nonlinear_causal_effect", "lingam/utils/_visualize_nonlinear_causal_effect.py:_calculate"]}
{"id": "C176", "title": "visualize_nonlinear_causal_effect accepts its documented arguments", "statement": "percentile may be a tuple of three percentages, cd_result any array-like adjacency matrix of the package, cause_positions any list of numbers; the figure has one line per percentile, through that percentile of the values at every position.", "quantifier": "for all tuples, matrices and lists of positions", "why_tests_cant": "quantifies over all arguments; tests use a few", "anchors": ["lingam/utils/_visualize_nonlinear_causal_effect.py:visualize_nonlinear_causal_effect", "lingam/utils/_visualize_nonlinear_causal_effect.py:_is_adjacency_matrix", "lingam/utils/_visualize_nonlinear_causal_effect.py:_draw"]}
{"id": "C177", "title": "RCD is right about every variable without hidden causes, whatever happens elsewhere", "statement": "If the data come from a linear acyclic model with independent non-Gaussian sources, some of them hidden, and every statistical test and regression is right, then for every variable such that no hidden cause acts on it or on one of its ancestors, RCD with max_explanatory_num 1 or 2 (the default) lists exactly its ancestors, lists it for exactly its descendants, and every entry of its row of adjacency_matrix_ is the true coefficient or NaN.", "quantifier": "for every such model, any number of variables and hidden causes, any variances", "why_tests_cant": "quantifies over all models with hidden variables and needs exact tests", "anchors": ["lingam/rcd.py:RCD.fit", "lingam/rcd.py:RCD._extract_ancestors", "lingam/rcd.py:RCD._is_parent", "lingam/rcd.py:RCD._estimate_adjacency_matrix"]}
{"id": "C178", "title": "RCD puts NaN exactly on pairs with a common hidden cause", "statement": "In the situation of C177 a pair of variables is NaN in adjacency_matrix_ only if some hidden cause acts on (an ancestor of) both; if no hidden cause acts on a proper ancestor of either, the pair is NaN exactly when their direct hidden causes are correlated, and all other entries of the two rows are the true coefficients.", "quantifier": "for every such model and any max_explanatory_num", "why_tests_cant": "quantifies over all models with hidden variables and needs exact tests", "anchors": ["lingam/rcd.py:RCD._extract_vars_sharing_confounders", "lingam/rcd.py:RCD._estimate_adjacency_matrix"]}
{"id": "C179", "title": "The parent step of RCD changes no coefficient", "statement": "With right tests every entry of adjacency_matrix_ that is not NaN is the least squares coefficient of the regression of the variable on all variables in its ancestors_list_ (0 for variables not listed): dropping ancestors as non-parents never changes the other coefficients.", "quantifier": "for every linear model with or without hidden causes and every max_explanatory_num", "why_tests_cant": "quantifies over all models; needs exact tests", "anchors": ["lingam/rcd.py:RCD._is_parent", "lingam/rcd.py:RCD._extract_parents", "lingam/rcd.py:RCD._estimate_adjacency_matrix"]}
{"id": "C180", "title": "RCD's total effects of a variable without hidden causes are right", "statement": "On data from a linear acyclic non-Gaussian model with any hidden causes, if every test and regression is right and max_explanatory_num is 1 or 2 (the default): for a source such that no hidden cause acts on it or its ancestors, estimate_total_effect and estimate_total_effect2 return the true total effect on every other variable (also one with hidden causes), or NaN when the source's row contains NaN; with max_explanatory_num 1 never NaN. (estimate_total_effect2 for the default: if the estimated matrix has no directed cycle.)", "quantifier": "for every such model, any number of variables and hidden causes, every source without hidden causes and every destination", "why_tests_cant": "quantifies over all models with hidden variables; tests on simulated data see only estimates", "anchors": ["lingam/rcd.py:RCD.estimate_total_effect", "lingam/rcd.py:RCD.estimate_total_effect2", "lingam/utils/__init__.py:calculate_total_effect"]}
{"id": "C181", "title": "ancestors_list_ of RCD contains no cycle", "statement": "If every test answers correctly about a linear acyclic model, no variable is recorded in ancestors_list_ as an ancestor of itself through others.", "quantifier": "for every linear acyclic non-Gaussian model with any hidden causes and any max_explanatory_num", "why_tests_cant": "a cycle needs a particular constellation of hidden causes and five variables; no test on random data looks for it", "anchors": ["lingam/rcd.py:RCD._extract_ancestors", "lingam/rcd.py:RCD._exists_ancestor_in_U"]}
{"id": "C182", "title": "Everything CAM-UV reports as a parent is a cause", "statement": "On data from a linear acyclic model with independent non-Gaussian errors and any hidden causes, if every independence test answers correctly and num_explanatory_vals is 1 or 2 (the default is 2): every entry 1 of adjacency_matrix_ points from a true ancestor to its descendant, whatever prior knowledge is given, and the entries 1 contain no directed cycle.", "quantifier": "for every such model, any number of variables and hidden causes, any prior knowledge, hsic or fcorr, any iteration order of Python sets", "why_tests_cant": "quantifies over all models with hidden variables; tests on simulated data see single estimates without knowing whether a wrong test or a wrong search caused an error", "anchors": ["lingam/camuv.py:CAMUV.fit", "lingam/camuv.py:CAMUV._find_parents", "lingam/camuv.py:CAMUV._get_child", "lingam/multi_group_camuv.py:MultiGroupCAMUV.fit"]}
{"id": "C183", "title": "CAM-UV recovers the graph among variables without hidden causes", "statement": "Under the same conditions, if the prior knowledge excludes no true cause and no path effect cancels by accident in a regression on ancestors: a variable with no hidden cause acting on it or its ancestors gets exactly its true parents, and the entries between two such variables are 1 for edges, 0 otherwise and never NaN. Without hidden causes the whole matrix is the true 0/1 pattern.", "quantifier": "for every such model, any number of variables and hidden causes; with a witness that freedom from cancelling total effects alone is not enough", "why_tests_cant": "exact recovery for all graphs cannot be seen on samples; the cancelling weights form a set that random tests miss", "anchors": ["lingam/camuv.py:CAMUV.fit", "lingam/camuv.py:CAMUV._find_parents", "lingam/camuv.py:CAMUV._estimate_adjacency_matrix"]}
{"id": "C184", "title": "An entry 1 of CAM-UV's matrix is a direct cause", "statement": "With correct tests, adjacency_matrix_[i, j] = 1 means that j acts directly on i, not only through other observed variables.", "quantifier": "for every linear acyclic model with any hidden causes", "why_tests_cant": "needs a hidden cause between two variables and an observed cause above them; the project's tests have no such case", "anchors": ["lingam/camuv.py:CAMUV.fit", "lingam/camuv.py:CAMUV._find_parents", "lingam/camuv.py:CAMUV._check_independence_withou_K"]}
{"id": "C185", "title": "MultiGroupRCD recovers the matrix of every data set", "statement": "On several data sets from linear acyclic models without hidden causes (the models may differ, as long as the union of their total effects is a strict order and an ancestor has an effect in at least one of them), if the pooled tests answer correctly and max_explanatory_num is 1 or 2: fit finishes, ancestors_list_[i] is exactly the set of variables with an effect on i in some data set, and each adjacency matrix equals the true matrix of its data set without NaN. An effect that cancels in one data set, which RCD alone misses, is recovered from the others.", "quantifier": "for every number of variables and data sets, all such models, weights and variances", "why_tests_cant": "exact recovery for all families of graphs cannot be seen on samples; the tests use data sets with one common graph", "anchors": ["lingam/multi_group_rcd.py:MultiGroupRCD.fit", "lingam/multi_group_rcd.py:MultiGroupRCD._extract_ancestors", "lingam/multi_group_rcd.py:MultiGroupRCD._is_parent", "lingam/multi_group_rcd.py:MultiGroupRCD._estimate_adjacency_matrix"]}
{"id": "C186", "title": "MultiGroupRCD with F-correlation uses all data sets", "statement": "With independence='fcorr' the pooled analysis reports residuals as independent only if they are independent in every data set, so a cause that shows in one data set is found.", "quantifier": "for every list of data sets", "why_tests_cant": "the result depends on the order in which data sets are passed; the tests use one order and equal data sets", "anchors": ["lingam/multi_group_rcd.py:MultiGroupRCD._is_independent", "lingam/multi_group_rcd.py:MultiGroupRCD.fit"]}
{"id": "C187", "title": "MLHSICR minimises a dependence measure that ignores units and sign", "statement": "With MLHSICR=True the quantity minimised over the coefficients is a sum of nonnegative HSIC values between the residual and each regressor, and it does not change when the variables are recorded in other units or with the opposite sign (the coefficients being converted accordingly).", "quantifier": "for all data, coefficients, units and offsets", "why_tests_cant": "invariance under every change of units and sign is a statement about all data; a test sees one recording", "anchors": ["lingam/rcd.py:RCD._get_resid_and_coef_by_MLHSICR", "lingam/multi_group_rcd.py:MultiGroupRCD._get_resid_and_coef_by_MLHSICR", "lingam/utils/_rcd.py:get_resid_and_coef_by_MLHSICR"]}
{"id": "C188", "title": "MLHSICR minimises what the independence test measures", "statement": "The quantity minimised by MLHSICR is the sum of the statistics that the HSIC test computes for the residual and each regressor, so that the minimising coefficients are those the following test is most likely to accept.", "quantifier": "for all data and coefficients", "why_tests_cant": "two separate pieces of code have to agree on all data; no test compares them", "anchors": ["lingam/rcd.py:RCD._get_resid_and_coef_by_MLHSICR", "lingam/multi_group_rcd.py:MultiGroupRCD._get_resid_and_coef_by_MLHSICR", "lingam/utils/_rcd.py:get_resid_and_coef_by_MLHSICR", "lingam/hsic.py:hsic_test_gamma"]}
{"id": "C189", "title": "The MLHSICR objective is a number for all coefficients", "statement": "For data without constant columns, the quantity minimised by MLHSICR is a number whatever coefficients the optimiser tries.", "quantifier": "for all data and coefficients", "why_tests_cant": "the coefficients where the value is NaN form a hyperplane that tests do not hit", "anchors": ["lingam/rcd.py:RCD._get_resid_and_coef_by_MLHSICR", "lingam/multi_group_rcd.py:MultiGroupRCD._get_resid_and_coef_by_MLHSICR", "lingam/utils/_rcd.py:get_resid_and_coef_by_MLHSICR"]}
{"id": "C190", "title": "VARMALiNGAM recovers the structural matrices", "statement": "If the VARMA part is estimated exactly and the LiNGAM method is right on the residuals, fit reports exactly the instantaneous and lagged matrices and the moving average matrices of the structural model.", "quantifier": "for every number of variables, all orders (p, q) and all structural models", "why_tests_cant": "exact recovery for all models cannot be seen on samples; the tests only look at shapes", "anchors": ["lingam/varma_lingam.py:VARMALiNGAM.fit", "lingam/varma_lingam.py:VARMALiNGAM._calc_psi_and_omega"]}
{"id": "C191", "title": "Residuals of VARMALiNGAM for given coefficients are the innovations", "statement": "When ar_coefs and ma_coefs are given and the series follows the VARMA equation with these coefficients, residuals_ are the innovations of the series.", "quantifier": "for all series, coefficients and random numbers", "why_tests_cant": "the first values are random numbers; whether their effect ever disappears is a statement about all series lengths", "anchors": ["lingam/varma_lingam.py:VARMALiNGAM.fit", "lingam/varma_lingam.py:VARMALiNGAM._calc_residuals"]}
{"id": "C192", "title": "ICA-LiNGAM does not depend on order and signs of the components", "statement": "Independent component analysis determines components only up to order and sign. Listing the components in another order or with other signs changes neither the causal order nor the adjacency matrix, as long as the best matching of components and variables is unique.", "quantifier": "for every number of variables, every unmixing matrix, every order and all signs", "why_tests_cant": "a test sees one order of components; the invariance concerns all of them", "anchors": ["lingam/ica_lingam.py:ICALiNGAM.fit", "lingam/ica_lingam.py:ICALiNGAM._estimate_causal_order"]}
{"id": "C193", "title": "ICA-LiNGAM does not depend on units of measurement", "statement": "Recording the variables in other units (multiplying each column by a positive constant, which divides the columns of the unmixing matrix) leaves the causal order as it is and converts the coefficients.", "quantifier": "for every number of variables, every unmixing matrix and all units", "why_tests_cant": "a test sees one choice of units; the statement quantifies over all of them", "anchors": ["lingam/ica_lingam.py:ICALiNGAM.fit", "lingam/ica_lingam.py:ICALiNGAM._estimate_causal_order"]}
{"id": "C194", "title": "ICA-LiNGAM tolerates small errors of the unmixing matrix", "statement": "If the unmixing matrix found by independent component analysis differs from the true one by relative errors of at most epsilon, and every true coefficient is larger than 2*epsilon/(1-epsilon) in absolute value, and the components can be matched (epsilon times the scale of each component times the sum of the inverse scales is below 1-epsilon), then components are matched to the right variables, causal_order_ is right and every coefficient before the pruning is within epsilon*(1+|b|)/(1-epsilon) of the true one. For two variables and epsilon up to 1/3 the bound on the coefficients is sharp: below it there are errors of this size with which the order is wrong.", "quantifier": "for every number of variables, every acyclic matrix, all errors and all scales of the components", "why_tests_cant": "a guarantee for all perturbations below a bound, and its sharpness, are not visible on samples", "anchors": ["lingam/ica_lingam.py:ICALiNGAM.fit", "lingam/ica_lingam.py:ICALiNGAM._estimate_causal_order"]}
{"id": "C195", "title": "MultiGroupCAMUV reports only causes and recovers the graph among variables without hidden causes", "statement": "Several data sets from linear acyclic models with a common causal order, in which coefficients, edges and hidden causes may differ. If the joint independence tests answer correctly and num_explanatory_vals is 1 or 2 (the default is 2): every entry 1 of adjacency_matrix_ points from a cause to an effect and the entries 1 contain no directed cycle. If in addition no effect cancels in all data sets at once and no cause is excluded by prior_knowledge, a variable with no hidden cause acting on it or its causes gets exactly the variables that act on it directly in at least one data set, and entries between two such variables are never NaN.", "quantifier": "for every number of data sets, variables and hidden causes, every such family of models, any iteration order of Python sets", "why_tests_cant": "quantifies over all families of models; in the project's tests all data sets have the same coefficients", "anchors": ["lingam/multi_group_camuv.py:MultiGroupCAMUV.fit", "lingam/multi_group_camuv.py:MultiGroupCAMUV._find_parents", "lingam/multi_group_camuv.py:MultiGroupCAMUV._is_independent_by"]}
{"id": "C196", "title": "Every ancestor MultiGroupRCD reports is a cause in some data set", "statement": "Several data sets from linear acyclic models with a common causal order and any hidden causes. If the joint tests answer correctly, every entry of ancestors_list_ is a cause along edges that exist in at least one data set, and the coefficients of all adjacency matrices together contain no directed cycle.", "quantifier": "for every number of data sets, variables and hidden causes, every max_explanatory_num", "why_tests_cant": "quantifies over all families of models with hidden variables; tests on simulated data cannot tell a wrong search from a wrong test", "anchors": ["lingam/multi_group_rcd.py:MultiGroupRCD.fit", "lingam/multi_group_rcd.py:MultiGroupRCD._extract_ancestors"]}
{"id": "C197", "title": "Pruning gives least squares coefficients of the kept predictors and does not depend on units", "statement": "The coefficients found for a variable are those of one least squares regression, in the original units, on a subset of its predecessors, and 0 for the other predecessors. If the columns are linearly independent (together with a constant): a predecessor whose coefficient in the regression on all predecessors is 0 gets 0, and measuring the variables in other units (positive factors) and from other origins leaves the order, the exception if there is one, and the set of edges as they are, and multiplies the coefficient from j to i by (unit of i)/(unit of j).", "quantifier": "for every number of rows and variables, all data, all predictors, every factor and origin", "why_tests_cant": "an invariance over all data and units; tests use one data set in one set of units", "anchors": ["lingam/utils/__init__.py:predict_adaptive_lasso", "lingam/base.py:_BaseLiNGAM._estimate_adjacency_matrix", "lingam/direct_lingam.py:DirectLiNGAM.fit"]}
{"id": "C198", "title": "When DirectLiNGAM keeps an edge: the squared t-statistic must exceed the logarithm of the number of rows", "statement": "For two variables with correlation rho, |rho| < 1, and N rows, fit raises an exception if N <= 2; otherwise exactly one entry of adjacency_matrix_ can be other than 0, the one from the first to the second variable of causal_order_; it is other than 0 exactly if (N-2)*rho^2 > (1-rho^2)*log(N), and then it is the slope of the simple regression. With m predecessors, at least one gets a coefficient other than 0 whenever the F-statistic of the regression on all of them exceeds log(N). A variable that is an exact linear function of its predecessors gets no edge at all.", "quantifier": "for every number of rows, all data, every number of predictors", "why_tests_cant": "an exact threshold over all data; tests look at one simulated sample far away from the threshold", "anchors": ["lingam/utils/__init__.py:predict_adaptive_lasso", "lingam/base.py:_BaseLiNGAM._estimate_adjacency_matrix", "lingam/direct_lingam.py:DirectLiNGAM.fit"]}
{"id": "C199", "title": "VARLiNGAM does not depend on units of measurement", "statement": "Measuring the variables of the series in other units (positive factors; given autoregressive coefficients converted accordingly) changes neither causal_order_, nor the number of lags that the criterion selects, nor whether fit raises an exception, and multiplies the coefficient from j to i of every matrix in adjacency_matrices_ by (unit of i)/(unit of j). This holds with the default parts (least squares autoregression, any of the offered criteria, DirectLiNGAM on the residuals, pruning by the adaptive Lasso on or off) as soon as the constant, the present and the past values are linearly independent.", "quantifier": "for every series, number of variables and lags, setting, and all positive factors", "why_tests_cant": "an invariance over all series and units; tests fit one series in one set of units", "anchors": ["lingam/var_lingam.py:VARLiNGAM.fit", "lingam/var_lingam.py:VARLiNGAM._estimate_var_coefs", "lingam/var_lingam.py:VARLiNGAM._pruning"]}
{"id": "C200", "title": "Bootstrap results and total effects do not depend on units of measurement", "statement": "If all coefficients are converted to other units, then without a limit min_causal_effect the counts of directions and of graphs (with and without signs) and the probabilities stay exactly the same; get_total_causal_effects and get_paths list the same pairs and paths, in the same order and with the same probabilities, and every effect is multiplied by (unit of the target)/(unit of the source). calculate_total_effect, estimate_total_effect2 of the time series model and the total effects stored by bootstrap are converted in the same way, NaN and exceptions included. A limit min_causal_effect is a limit in units: whatever its value, an effect is counted in some units and not in others.", "quantifier": "for all samples, numbers of variables and samples, sources, targets and positive factors", "why_tests_cant": "an invariance over all results and units; tests use one result", "anchors": ["lingam/bootstrap.py:BootstrapResult", "lingam/bootstrap.py:BootstrapMixin.bootstrap", "lingam/utils/__init__.py:calculate_total_effect", "lingam/utils/__init__.py:find_all_paths", "lingam/var_lingam.py:VARLiNGAM.estimate_total_effect2"]}
{"id": "C201", "title": "RCD does not depend on units and origins of measurement", "statement": "Measuring the variables in other units (any nonzero factors, so also with reversed sign) and from other origins changes neither ancestors_list_ nor the positions of NaN in adjacency_matrix_, and multiplies the coefficient from j to i by (unit of i)/(unit of j), with independence 'hsic' and with 'fcorr', for all limits and numbers of explanatory variables, without MLHSICR (the default).", "quantifier": "for all data with any numbers of rows and columns (constant and columns linearly independent), all settings, all nonzero factors and all origins", "why_tests_cant": "an invariance of a whole search over all data and units; a test compares two fits of one data set", "anchors": ["lingam/rcd.py:RCD.fit", "lingam/rcd.py:RCD._is_independent_of_resid", "lingam/rcd.py:RCD._get_resid_and_coef", "lingam/rcd.py:RCD._is_correlated", "lingam/hsic.py:hsic_test_gamma", "lingam/utils/_f_correlation.py:f_correlation"]}
{"id": "C202", "title": "BottomUpParceLiNGAM does not depend on units and origins of measurement", "statement": "Measuring the variables in other units (positive factors) and from other origins changes neither causal_order_ (with its block of unresolved variables) nor the positions of NaN in adjacency_matrix_ nor whether and how fit raises an exception, and multiplies the coefficient from j to i by (unit of i)/(unit of j); with both kinds of independence test, with and without prior knowledge, for all limits, with the built-in least squares regression.", "quantifier": "for all data with any numbers of rows and columns (constant and columns linearly independent), all settings, all positive factors and all origins", "why_tests_cant": "an invariance of a whole search over all data and units; a test compares two fits of one data set", "anchors": ["lingam/bottom_up_parce_lingam.py:BottomUpParceLiNGAM.fit", "lingam/bottom_up_parce_lingam.py:BottomUpParceLiNGAM._find_exo_vec", "lingam/bottom_up_parce_lingam.py:BottomUpParceLiNGAM._compute_residuals", "lingam/bottom_up_parce_lingam.py:BottomUpParceLiNGAM._fisher_hsic_test"]}
{"id": "C203", "title": "LongitudinalLiNGAM does not depend on units and origins of measurement", "statement": "Measuring the variables in other units (positive factors) and from other origins, which may be different at every time point, changes neither causal_orders_ nor the positions of NaN in adjacency_matrices_ nor whether and how fit raises an exception, and multiplies the effect of variable j at one time on variable i at time t by (unit of i at t)/(unit of j at that time); with and without prior knowledge (without it, residuals_ are converted up to a constant), with measure pwling and the built-in adaptive Lasso. In the documented reading of adjacency_matrices_[t, k] this holds for one lag, and for all numbers of lags if the units are the same at all times (for more lags the entries are in reverse, C41). Without prior knowledge fit is defined whenever there are more samples than variables.", "quantifier": "for all panels with any numbers of times, samples and variables (constant and the columns used together linearly independent), all numbers of lags, all prior knowledge, all positive factors and all origins", "why_tests_cant": "an invariance of a whole estimation over all data and units; a test compares two fits of one panel", "anchors": ["lingam/longitudinal_lingam.py:LongitudinalLiNGAM.fit", "lingam/longitudinal_lingam.py:LongitudinalLiNGAM._compute_residuals", "lingam/longitudinal_lingam.py:LongitudinalLiNGAM._estimate_instantaneous_effects", "lingam/longitudinal_lingam.py:LongitudinalLiNGAM._estimate_lagged_effects"]}
{"id": "C204", "title": "MultiGroupDirectLiNGAM accepts data sets in different units, in any order of data sets and rows", "statement": "Measuring the data sets in other units (positive factors) and from other origins, which may be different in every data set, changes neither causal_order_ nor whether and how fit raises an exception, and multiplies the effect of j on i in the matrix of a data set by (its unit of i)/(its unit of j); causal_order_ does not change either if the signs of variables are changed in some data sets, if the rows of the data sets are permuted or all repeated k times, or if the data sets are given in another order (then each data set keeps its matrix). For copies of one data set causal_order_ is that of DirectLiNGAM for it. Without prior knowledge and with more rows than variables in every data set fit returns an order of all variables and one matrix per data set. Measure pwling, with and without prior knowledge.", "quantifier": "for all lists of data sets with any numbers of rows and variables (for the matrices: constant and variables linearly independent in each), all prior knowledge, all units, origins, signs, permutations and numbers of copies", "why_tests_cant": "invariances of a whole estimation over all data; a test compares two fits of one list of data sets", "anchors": ["lingam/multi_group_direct_lingam.py:MultiGroupDirectLiNGAM.fit", "lingam/multi_group_direct_lingam.py:MultiGroupDirectLiNGAM._search_causal_order", "lingam/base.py:_BaseLiNGAM._estimate_adjacency_matrix"]}
{"id": "C205", "title": "CausalBasedSimulator: names and arguments", "statement": "Every variable has its own name, and everything given under a name is applied to that variable. train accepts exactly acyclic graphs with a regressor (for discrete variables a classifier with predict_proba) for known names. run refuses ill-formed arguments (unknown or discrete variables, NaN, wrong length, unknown parents, missing or wrong number of coefficients, wrong kind of model) and, if the changed graph has a cycle, raises ValueError; otherwise it returns a column for every name that satisfies its equation: fitted, given coefficients times, or given model of, the simulated parents in the given order, plus the given values or the residuals of training. run before train raises RuntimeError.", "quantifier": "for all data, graphs, labels, dictionaries, models and shuffles", "why_tests_cant": "the dictionaries and graphs that can be passed are unbounded; a test passes a few", "anchors": ["lingam/causal_based_simulator.py:CausalBasedSimulator.train", "lingam/causal_based_simulator.py:CausalBasedSimulator.run", "lingam/causal_based_simulator.py:CausalBasedSimulator._check_changing_exog", "lingam/causal_based_simulator.py:CausalBasedSimulator._check_changing_models", "lingam/causal_based_simulator.py:CBSITimeSeriesLiNGAM._make_var_names"]}
{"id": "C206", "title": "extract_ancestors agrees with RCD", "statement": "For the same data and the same levels, extract_ancestors returns exactly the sets that RCD with independence='hsic' stores in ancestors_list_; it always returns, no variable is its own ancestor and no two are ancestors of each other; without MLHSICR the result does not depend on units, signs and origins of measurement; it accepts every array-like that RCD.fit accepts.", "quantifier": "for all data, levels, numbers of explanatory variables and implementations of the statistical tests", "why_tests_cant": "two separately written programs have to agree on every data set and every sequence of test outcomes; a test compares one", "anchors": ["lingam/utils/_rcd.py:extract_ancestors", "lingam/rcd.py:RCD._extract_ancestors"]}
{"id": "C207", "title": "Printed bootstrap results", "statement": "print_causal_directions prints one line per counted direction in the order of the counts, with the names of target and source, the sign if counted by sign, and the share of the samples that contain it, rounded to tenths of a percent; with fewer than 2000 samples 100.0% is printed exactly for directions found in every sample and 0.0% never. print_dagc prints each counted graph once, numbered, with its share of the samples and one line per edge. Different directions are printed differently. labels may be any array-like.", "quantifier": "for all bootstrap results, thresholds, numbers of requested rows, labels and ways of rounding", "why_tests_cant": "the claim relates the printed text to the unbounded set of samples; a test looks at a few outputs", "anchors": ["lingam/utils/__init__.py:print_causal_directions", "lingam/utils/__init__.py:print_dagc", "lingam/bootstrap.py:BootstrapResult.get_causal_direction_counts", "lingam/bootstrap.py:BootstrapResult.get_directed_acyclic_graph_counts"]}
{"id": "C208", "title": "Integer data in RCD, CAMUV and MultiGroupDirectLiNGAM", "statement": "fit gives the same result for the same numbers whether the data are stored as integers or as floats.", "quantifier": "for all data sets of integers, arguments, regressions and tests", "why_tests_cant": "only data of an integer type whose residuals are no integers show it; all tests use floats", "anchors": ["lingam/rcd.py:RCD._get_residual_matrix", "lingam/camuv.py:CAMUV._get_residuals_matrix", "lingam/camuv.py:CAMUV._find_parents", "lingam/multi_group_direct_lingam.py:MultiGroupDirectLiNGAM.fit"]}
{"id": "C209", "title": "CausalEffect follows its causal model", "statement": "The estimates of a CausalEffect object refer to the causal model in its state at the call: they are what an object created just before the call would return.", "quantifier": "for all causal models (LiNGAM objects, arrays, lists), all sequences of states of the model at the calls, and all estimations", "why_tests_cant": "needs a model that is fitted again or changed in place between two calls; tests create a new object for each call", "anchors": ["lingam/causal_effect.py:CausalEffect._check_init_params", "lingam/causal_effect.py:CausalEffect._get_propagated_effects", "lingam/causal_effect.py:CausalEffect.estimate_effects_on_prediction", "lingam/causal_effect.py:CausalEffect.estimate_optimal_intervention"]}
{"id": "C210", "title": "Rows of generated data", "statement": "CausalDataGenerator.generate returns one row per row of the training data, in the same order and with the same row labels, and uses the k-th value of an intervention in the k-th row.", "quantifier": "for all training data, row labels, models and interventions given as arrays or pandas Series", "why_tests_cant": "needs repeated row labels, or a Series with labels other than those of the data (for instance after rows were dropped)", "anchors": ["lingam/experimental/cdg.py:CausalDataGenerator.generate", "lingam/experimental/cdg.py:CausalDataGenerator._check_data_dict"]}
{"id": "C211", "title": "bootstrap_with_imputation with its defaults", "statement": "With the default imputer and the default causal discovery, bootstrap_with_imputation accepts every n_sampling >= 1 and n_repeats >= 1, completes for every data set with observed values in all columns and consistent prior knowledge, and returns for each repetition an order of all columns that respects the prior knowledge and n_repeats matrices whose arrows follow that order and contain none that is excluded.", "quantifier": "for all data sets, resamplings, fill-ins, statistics and prior knowledge", "why_tests_cant": "the joint order over the completed data sets depends on random fill-ins; tests use the default number of repetitions", "anchors": ["lingam/tools/__init__.py:bootstrap_with_imputation", "lingam/tools/__init__.py:_DefaultMultiGroupCDModel", "lingam/multi_group_direct_lingam.py:MultiGroupDirectLiNGAM.fit"]}
{"id": "C212", "title": "RESIT and the order of the columns", "statement": "RESIT.fit gives the same causal model for the same data with the columns in another order: causal_order_ names the same variables in the same sequence and adjacency_matrix_ has the same edges between the same variables.", "quantifier": "for all data sets, regressors, HSIC statistics and p-values that do not depend on the order of their inputs, alpha and permutations of the columns", "why_tests_cant": "tests fit one arrangement of the columns; the edges of a variable are removed one after the other in an order that comes from the arrangement", "anchors": ["lingam/resit.py:RESIT.fit", "lingam/resit.py:RESIT._estimate_order", "lingam/resit.py:RESIT._remove_edges"]}
{"id": "C213", "title": "RCD and the order of the columns", "statement": "RCD.fit gives the same result for the same data with the columns in another order: ancestors_list_ and adjacency_matrix_ say the same about the same variables.", "quantifier": "for all data-generating models with or without hidden common causes, all tests, both max_explanatory_num 1 and 2, and all permutations of the columns", "why_tests_cant": "tests fit one arrangement; the search records ancestors while it is still going through the subsets of columns, so later answers depend on earlier ones", "anchors": ["lingam/rcd.py:RCD.fit", "lingam/rcd.py:RCD._extract_ancestors", "lingam/rcd.py:RCD._extract_vars_sharing_confounders"]}
{"id": "C214", "title": "CAM-UV and the order of the columns", "statement": "CAMUV.fit gives the same adjacency_matrix_ (edges, zeros and NaN) for the same data with the columns in another order.", "quantifier": "for all data-generating models with or without hidden common causes, all tests that answer correctly, prior knowledge without errors and all permutations of the columns", "why_tests_cant": "tests fit one arrangement; parents are added while the sets of columns are still being searched and pruned column by column", "anchors": ["lingam/camuv.py:CAMUV.fit", "lingam/camuv.py:CAMUV._find_parents", "lingam/camuv.py:CAMUV._get_child"]}
{"id": "C215", "title": "The order of the columns in MultiGroupDirectLiNGAM and DirectLiNGAM", "statement": "MultiGroupDirectLiNGAM.fit and DirectLiNGAM.fit give the same result for the same data with the columns (and the prior knowledge with them) in another order: the same order of the variables, the same coefficients, the same errors. For data with a unique joint order, this is the order in which each variable has the smallest evidence against it, averaged over the data sets with their sizes as weights, among the variables that the prior knowledge allows at its place.", "quantifier": "for all numbers of data sets and rows, all data, all prior knowledge, all regression oracles and all permutations of the columns", "why_tests_cant": "tests fit one arrangement; a tie between candidates is resolved by position and only shows when the columns are rearranged", "anchors": ["lingam/multi_group_direct_lingam.py:MultiGroupDirectLiNGAM.fit", "lingam/multi_group_direct_lingam.py:MultiGroupDirectLiNGAM._search_causal_order", "lingam/direct_lingam.py:DirectLiNGAM._search_candidate", "lingam/base.py:_BaseLiNGAM._estimate_adjacency_matrix"]}
{"id": "C216", "title": "Fitting an object again, and after an exception", "statement": "A successful fit leaves the same results as on a new object, whatever was fitted before and whichever calls raised. After a call of fit that raises, the object still reports the order and the matrix of the last successful fit (or nothing), so that the two always belong together.", "quantifier": "for all settings, all earlier states, all series of data sets of any sizes, and all regression oracles", "why_tests_cant": "tests fit each object once and do not look at an object after an exception", "anchors": ["lingam/direct_lingam.py:DirectLiNGAM.fit", "lingam/base.py:_BaseLiNGAM._estimate_adjacency_matrix", "lingam/multi_group_direct_lingam.py:MultiGroupDirectLiNGAM.fit", "lingam/ica_lingam.py:ICALiNGAM.fit", "lingam/bottom_up_parce_lingam.py:BottomUpParceLiNGAM.fit", "lingam/var_lingam.py:VARLiNGAM.fit"]}
{"id": "C217", "title": "ICA-LiNGAM and the order of the columns", "statement": "If no two coefficients are equally strong and the best matching of components and variables is unique, causal_order_ lists causes before effects in one graph, the strongest acyclic graph of the coefficients (entries above the lowest threshold that leaves at most n(n-1)/2 entries and no cycle). Putting the columns in another order (FastICA then returns the same components with reordered entries, in any order and with any signs) leaves this graph, the exceptions, causal_order_ and adjacency_matrix_ unchanged up to the names of the columns.", "quantifier": "for all unmixing matrices of two or more variables with different coefficients and one best matching, all orders of the columns, all orders and signs of the components, all sorting routines, matching routines and regressions", "why_tests_cant": "tests run one data set with its columns in one order", "anchors": ["lingam/ica_lingam.py:ICALiNGAM.fit", "lingam/ica_lingam.py:ICALiNGAM._estimate_causal_order", "lingam/ica_lingam.py:ICALiNGAM._search_causal_order"]}
{"id": "C218", "title": "Which variables CausalBasedSimulator takes for discrete", "statement": "is_discrete passed to train as flags, one per variable, marks exactly the flagged variables (for a time series at every lag), in whatever container the flags are; flags for another number of variables raise an exception.", "quantifier": "for all lists of different names, all flags and all numbers of lags", "why_tests_cant": "tests pass one list of flags for one data set", "anchors": ["lingam/causal_based_simulator.py:CausalBasedSimulator.train", "lingam/causal_based_simulator.py:CBSILiNGAM._make_var_names", "lingam/causal_based_simulator.py:CBSITimeSeriesLiNGAM._make_var_names"]}
{"id": "C219", "title": "The adaptive Lasso treats its predictors alike", "statement": "predict_adaptive_lasso gives every predictor the same coefficient whatever the order in which the predictors are listed and whatever the column numbers, if the predictors are linearly independent and the regression path routine itself treats its columns alike.", "quantifier": "for all data with independent predictors, all orders of the predictors, all exact least squares routines and all path routines that follow the columns", "why_tests_cant": "tests call it with one list of predictors", "anchors": ["lingam/utils/__init__.py:predict_adaptive_lasso"]}
{"id": "C220", "title": "VARLiNGAM does not depend on the order of the columns", "statement": "VARLiNGAM fitted to the same series with its columns in another order gives the same result with the variables renamed: the same exception, the same number of lags, the same causal order and the same coefficients of every lag, with or without pruning and with given or estimated lag coefficients.", "quantifier": "for all series with linearly independent lagged columns, all permutations of the columns, all criteria for the number of lags and all settings of pruning and prior knowledge", "why_tests_cant": "tests use one order of the columns", "anchors": ["lingam/var_lingam.py:VARLiNGAM.fit", "lingam/var_lingam.py:VARLiNGAM._estimate_var_coefs", "lingam/var_lingam.py:VARLiNGAM._pruning", "lingam/var_lingam.py:VARLiNGAM._calc_b"]}
{"id": "C221", "title": "BottomUpParceLiNGAM does not depend on the order of the columns", "statement": "BottomUpParceLiNGAM fitted to the same data with the columns and the prior knowledge in another order gives the same result with the variables renamed: the same exception, the same causal order of the same variables, the same group of variables whose order is left open and the same adjacency matrix.", "quantifier": "for all data with linearly independent columns, all permutations of the columns, all prior knowledge, both independence measures and all thresholds", "why_tests_cant": "tests use one order of the columns", "anchors": ["lingam/bottom_up_parce_lingam.py:BottomUpParceLiNGAM.fit", "lingam/bottom_up_parce_lingam.py:BottomUpParceLiNGAM._search_causal_order", "lingam/bottom_up_parce_lingam.py:BottomUpParceLiNGAM._find_exo_vec"]}
{"id": "C222", "title": "The order of the rows does not matter", "statement": "DirectLiNGAM, BottomUpParceLiNGAM and RCD fitted to the same observations listed in another order raise the same exception or give the same causal order, the same ancestors, the same unresolved variables and the same adjacency matrix.", "quantifier": "for all data with linearly independent columns, all permutations of the rows, all prior knowledge and thresholds", "why_tests_cant": "tests use data in one order of the rows, and mostly no more than a few hundred rows", "anchors": ["lingam/direct_lingam.py:DirectLiNGAM.fit", "lingam/bottom_up_parce_lingam.py:BottomUpParceLiNGAM.fit", "lingam/rcd.py:RCD.fit", "lingam/hsic.py:get_kernel_width"]}
{"id": "C223", "title": "The matrix of the high-dimensional method", "statement": "HighDimDirectLiNGAM.fit returns an order and, unless estimate_adj_mat is False, an adjacency matrix; it raises only for two or more columns with fewer than five rows and no more rows than columns. Each row of the matrix holds the coefficients of one least squares regression, in the units of the data, on some of the earlier variables, and 0 elsewhere; a variable whose coefficient in the regression on all earlier variables is 0 gets 0. Other units and origins that leave causal_order_ as it is convert the entries.", "quantifier": "for all data, all parameters and both ways of estimating the matrix (more rows than columns or not), all least squares and Lasso routines", "why_tests_cant": "tests use a few data sets; the boundary between the two ways and the small samples in which the cross-validation fails are not tested", "anchors": ["lingam/high_dim_direct_lingam.py:HighDimDirectLiNGAM.fit", "lingam/high_dim_direct_lingam.py:HighDimDirectLiNGAM._estimate_adjacency_matrix2", "lingam/high_dim_direct_lingam.py:HighDimDirectLiNGAM._predict_adaptive_lasso"]}
{"id": "C224", "title": "The order of the rows does not matter for the high-dimensional method", "statement": "HighDimDirectLiNGAM fitted to the same observations listed in another order gives the same causal_order_ and the same adjacency_matrix_.", "quantifier": "for all data (for the matrix: with linearly independent columns), all permutations of the rows, all parameters", "why_tests_cant": "tests use data in one order of the rows", "anchors": ["lingam/high_dim_direct_lingam.py:HighDimDirectLiNGAM.fit"]}
{"id": "C225", "title": "The p-values of the errors do not depend on how the data are written down", "statement": "get_error_independence_p_values returns the same p-values for the same variables if the variables are measured in other units or from other origins, if the observations are listed in another order, or if the columns are put in another order; the same holds when DirectLiNGAM is fitted again to the changed data.", "quantifier": "for all data with linearly independent columns, all positive factors, all origins, all permutations of rows and columns", "why_tests_cant": "tests call the method once on one data set and check the shape of the result", "anchors": ["lingam/base.py:_BaseLiNGAM.get_error_independence_p_values", "lingam/hsic.py:hsic_test_gamma", "lingam/direct_lingam.py:DirectLiNGAM.fit"]}
{"id": "C226", "title": "CausalEffect does not depend on units, origins and the order of the columns", "statement": "estimate_effects_on_prediction reports for each variable the same two numbers if the variables are measured in other units and from other origins or the columns are put in another order (matrix, data and prediction model changed accordingly); a reversed sign only exchanges the two numbers. estimate_optimal_intervention then returns the same intervention, written in the new unit.", "quantifier": "for all matrices, means, prediction models, factors, origins and permutations, all random choices", "why_tests_cant": "tests use one matrix in one unit and look at the shape of the result", "anchors": ["lingam/causal_effect.py:CausalEffect.estimate_effects_on_prediction", "lingam/causal_effect.py:CausalEffect.estimate_optimal_intervention", "lingam/causal_effect.py:CausalEffect._check_init_params"]}
{"id": "C227", "title": "LongitudinalLiNGAM does not depend on the order of the columns", "statement": "If the columns of all time points are put in another order (and the prior knowledge with them), LongitudinalLiNGAM.fit raises the same exception, or finds the same causal orders and the same coefficients for the same variables.", "quantifier": "for all panels, numbers of lags, prior knowledge and permutations, all correct regressions", "why_tests_cant": "tests use one panel with its columns in one order", "anchors": ["lingam/longitudinal_lingam.py:LongitudinalLiNGAM.fit", "lingam/longitudinal_lingam.py:LongitudinalLiNGAM._estimate_instantaneous_effects", "lingam/longitudinal_lingam.py:LongitudinalLiNGAM._estimate_lagged_effects"]}
{"id": "C228", "title": "VARMALiNGAM does not depend on units and the order of the columns", "statement": "If the variables of a series are measured in other units and its columns are put in another order (and given coefficients and prior knowledge with them), VARMALiNGAM.fit raises the same exception, or finds the same causal order, the same numbers of lags and the same coefficients for the same variables, converted to the new units.", "quantifier": "for all series, orders, given coefficients, factors, permutations, with and without pruning, with and without criterion", "why_tests_cant": "tests use one series in one unit and look at the shape of the result", "anchors": ["lingam/varma_lingam.py:VARMALiNGAM.fit", "lingam/varma_lingam.py:VARMALiNGAM._estimate_varma_coefs", "lingam/varma_lingam.py:VARMALiNGAM._calc_residuals", "lingam/varma_lingam.py:VARMALiNGAM._pruning", "lingam/varma_lingam.py:VARMALiNGAM._calc_psi_and_omega"]}
{"id": "C229", "title": "DirectLiNGAM finds the direction between two variables with exactly independent errors", "statement": "If y = b*x + e with b not 0, and in the sample e is exactly independent of x (every pair of values as frequent as the product of the frequencies) and neither is Gaussian, DirectLiNGAM with the default measure puts x before y, whatever the values and the order of the two columns.", "quantifier": "for all sample sizes, non-zero effects, pairs of exactly independent non-Gaussian samples, both orders of the columns, without prior knowledge", "why_tests_cant": "a test on generated data meets independence only approximately and one distribution at a time; a wrong answer would be put down to the sample size", "anchors": ["lingam/direct_lingam.py:DirectLiNGAM._search_causal_order", "lingam/direct_lingam.py:DirectLiNGAM._entropy", "lingam/direct_lingam.py:DirectLiNGAM._diff_mutual_info"]}
{"id": "C230", "title": "LiM stops at a solution that meets the tolerance", "statement": "If the first answer of the optimiser meets the tolerance for acyclicity, LiM's optimisation phase stops and uses this answer; a pass that ends below the limit of the penalty has reduced the violation to less than a quarter.", "quantifier": "for every optimiser, all random start values, tolerances, limits, thresholds and numbers of passes", "why_tests_cant": "depends on all possible answers of an external optimiser; an exactly acyclic answer is rare in tests", "anchors": ["lingam/lim.py:LiM._estimate_LiM"]}
{"id": "C231", "title": "The HSIC statistic is zero exactly if the two samples are exactly independent", "statement": "If hsic_test_gamma returns a statistic for two samples (of numbers or of vectors), it is 0 exactly if the two samples are exactly independent (every pair of values as frequent as the product of the frequencies), for every form of dependence. Exactly independent samples get the p-value 1; all others get a p-value below 1. A p-value is always computed if there are six rows, both samples vary within the first 100 rows, and some row occurs twice.", "quantifier": "for all sample sizes, all numbers of columns and all pairs of samples, whatever the kernel widths computed from the data", "why_tests_cant": "tests look at examples of dependence; they cannot show that no form of dependence is invisible to the statistic", "anchors": ["lingam/hsic.py:hsic_test_gamma", "lingam/hsic.py:hsic_teststat", "lingam/hsic.py:get_gram_matrix", "lingam/hsic.py:get_kernel_width"]}
{"id": "C232", "title": "RESIT puts causes before effects if the errors of the sample are exactly independent", "statement": "If every variable of the sample is a function of its causes plus an error, the errors are exactly independent in the sample, and no other residual is exactly independent of its regressors, RESIT returns an order in which every cause comes before its effects. This holds for linear models with least squares as the regressor, and for arbitrary functions with a regressor that predicts the mean over equal regressor values.", "quantifier": "for all numbers of variables, acyclic graphs, coefficients or functions, errors and levels alpha", "why_tests_cant": "tests draw a few random samples, in which errors are never exactly independent, and cannot show that the procedure itself is right for all graphs and functions", "anchors": ["lingam/resit.py:RESIT.fit", "lingam/resit.py:RESIT._estimate_order", "lingam/hsic.py:hsic_test_gamma"]}
{"id": "C233", "title": "BottomUpParceLiNGAM resolves all variables in a right order if the errors of the sample are exactly independent", "statement": "If the sample follows a linear acyclic model with exactly independent errors, and every residual of a variable that still has effects depends on some other remaining variable, BottomUpParceLiNGAM (HSIC, no prior knowledge) leaves no variable unresolved and puts every cause before its effects, for every significance level alpha not above n_features - 1.", "quantifier": "for all numbers of variables from two, coefficients, errors and sample sizes", "why_tests_cant": "tests draw a few random samples, in which errors are never exactly independent", "anchors": ["lingam/bottom_up_parce_lingam.py:BottomUpParceLiNGAM.fit", "lingam/bottom_up_parce_lingam.py:BottomUpParceLiNGAM._search_causal_order", "lingam/bottom_up_parce_lingam.py:BottomUpParceLiNGAM._fisher_hsic_test", "lingam/hsic.py:hsic_test_gamma"]}
{"id": "C234", "title": "What the significance levels do at their extremes, and when a stricter level finds less", "statement": "BottomUpParceLiNGAM with a larger alpha (or a smaller ind_corr) resolves a tail of the variables it resolves with the looser level, in the same order and with the same coefficients; alpha = 0 resolves every variable and ind_corr = 0 none. The causal order of RESIT does not depend on alpha; with alpha = 1 every variable gets an arrow from every earlier one; but a larger alpha can remove an arrow that a smaller one keeps. RCD and MultiGroupRCD with cor_alpha = 0 return zero matrices; with ind_alpha = 1 (HSIC), with ind_corr = 0 (fcorr), or with shapiro_alpha below all p-values of the normality test (MultiGroupRCD: all combined ones), they draw no arrow and report exactly the correlated pairs as confounded (MultiGroupRCD: in every data set). CAM-UV draws no arrow at either extreme: if no test passes all pairs are reported as confounded, if all first tests pass the matrix is zero.", "quantifier": "for all data sets (all values of the tests), numbers of variables and levels", "why_tests_cant": "tests use the default levels on a few data sets; the claims compare two runs on every data set", "anchors": ["lingam/bottom_up_parce_lingam.py:BottomUpParceLiNGAM._is_reject", "lingam/bottom_up_parce_lingam.py:BottomUpParceLiNGAM._search_causal_order", "lingam/resit.py:RESIT._remove_edges", "lingam/rcd.py:RCD._is_correlated", "lingam/rcd.py:RCD._is_independent", "lingam/rcd.py:RCD._is_non_gaussianity", "lingam/multi_group_rcd.py:MultiGroupRCD._is_correlated", "lingam/multi_group_rcd.py:MultiGroupRCD._is_independent", "lingam/multi_group_rcd.py:MultiGroupRCD._is_non_gaussianity", "lingam/camuv.py:CAMUV._is_independent"]}
{"id": "C235", "title": "MultiGroupRCD accepts data sets in different units, in any order", "statement": "If every data set is measured in units and from origins of its own, MultiGroupRCD (without MLHSICR) reports the same ancestors and the same confounded pairs, and every coefficient converted to the units of its data set. With HSIC, data sets given in another order give the same ancestors and the same matrices in that order. With HSIC, the order of the rows of a data set does not matter.", "quantifier": "for every number of data sets, rows and variables, all data with linearly independent columns, all levels, all changes of unit (also with reversed sign) and origin, different for every data set, every permutation of the data sets and of the rows", "why_tests_cant": "a comparison of two runs on every list of data sets", "anchors": ["lingam/multi_group_rcd.py:MultiGroupRCD.fit", "lingam/multi_group_rcd.py:MultiGroupRCD._is_independent", "lingam/multi_group_rcd.py:MultiGroupRCD._is_correlated", "lingam/multi_group_rcd.py:MultiGroupRCD._is_parent", "lingam/multi_group_rcd.py:MultiGroupRCD._extract_vars_sharing_confounders", "lingam/hsic.py:get_kernel_width"]}
{"id": "C236", "title": "A variable that is constant in one data set is isolated by MultiGroupRCD in all data sets", "statement": "If a variable is constant in one of the data sets, MultiGroupRCD reports no cause, no effect and no hidden common cause of it in any data set, whatever the other data sets show. With HSIC it is also listed as no variable's ancestor, and without MLHSICR (the default) no ancestors are listed for it.", "quantifier": "for all data, all settings, every number of data sets, rows and variables", "why_tests_cant": "data sets with a constant variable are not in the tests; the claim holds for all values of the other data sets", "anchors": ["lingam/multi_group_rcd.py:MultiGroupRCD.fit", "lingam/multi_group_rcd.py:MultiGroupRCD._is_parent", "lingam/multi_group_rcd.py:MultiGroupRCD._extract_vars_sharing_confounders"]}
{"id": "C237", "title": "Exactly which settings and lists of data sets are accepted, and what a rejected list leaves behind", "statement": "The constructors of RCD, MultiGroupRCD, CAMUV, MultiGroupCAMUV, RESIT and BottomUpParceLiNGAM accept exactly: a positive maximum number of explanatory variables, levels and thresholds that are at least 0 (and NaN in place of any number), the documented names of methods, and a regressor with fit and predict (required for RESIT). The multi-group methods accept exactly lists of at least two valid data sets with equal numbers of columns, LongitudinalLiNGAM with equal shapes, and use all of them in the given order. A rejected list leaves the result of the previous fit in place.", "quantifier": "for all values of all arguments, including NaN and infinities, all lists and all earlier states of the object", "why_tests_cant": "tests try a few wrong values each; the claim is about all of them", "anchors": ["lingam/rcd.py:RCD.__init__", "lingam/multi_group_rcd.py:MultiGroupRCD.__init__", "lingam/camuv.py:CAMUV.__init__", "lingam/multi_group_camuv.py:MultiGroupCAMUV.__init__", "lingam/resit.py:RESIT.__init__", "lingam/bottom_up_parce_lingam.py:BottomUpParceLiNGAM.__init__", "lingam/multi_group_rcd.py:MultiGroupRCD._check_X_list", "lingam/multi_group_camuv.py:MultiGroupCAMUV._check_X_list", "lingam/multi_group_direct_lingam.py:MultiGroupDirectLiNGAM._check_X_list", "lingam/longitudinal_lingam.py:LongitudinalLiNGAM.fit"]}
{"id": "C238", "title": "What max_explanatory_num of RCD means", "statement": "Every accepted max_explanatory_num gives an answer: a number that is not an integer is rounded up, NaN acts like 1, and all values from the number of variables minus one on give the same result. Violated: infinity is accepted and then fit never ends.", "quantifier": "for all data (all values of the tests), all numbers of variables and all limits", "why_tests_cant": "an infinite run cannot be observed; the equality of results is claimed for all data and limits", "anchors": ["lingam/rcd.py:RCD.__init__", "lingam/rcd.py:RCD._extract_ancestors", "lingam/multi_group_rcd.py:MultiGroupRCD._extract_ancestors"]}
{"id": "C239", "title": "RCD never turns the arrow round for two variables whose error is exactly independent of the cause", "statement": "Let one of two variables be a linear function of the other plus an error that is exactly independent of it in the sample. Then RCD (with HSIC) never reports an arrow from the effect to the cause. It reports the arrow from the cause to the effect, with exactly the true coefficient, if and only if normality of both variables is rejected, the two are found to be correlated and the residual of the cause is found to depend on the effect. Otherwise it reports a hidden common cause if the two are found to be correlated, and nothing if not.", "quantifier": "for every number of rows, all data of this kind, both orders of the columns, every coefficient, all levels (ind_alpha below 1), with and without MLHSICR, every limit of explanatory variables", "why_tests_cant": "exact independence is a property of all functions of the two columns; tests use a few random data sets", "anchors": ["lingam/rcd.py:RCD.fit", "lingam/rcd.py:RCD._extract_ancestors", "lingam/rcd.py:RCD._is_independent_of_resid", "lingam/rcd.py:RCD._extract_vars_sharing_confounders", "lingam/rcd.py:RCD._estimate_adjacency_matrix", "lingam/hsic.py:hsic_test_gamma"]}
{"id": "C240", "title": "DirectLiNGAM with the kernel measure takes the least dependent variable first, whatever the units", "statement": "With measure='kernel', units, origins and signs of the columns and the order of the rows have no influence on the causal order (nor on an exception). If no column is a linear combination of the others and a constant, a complete order is found without prior knowledge, in which every variable has the least sum of kernel dependences between it and the residuals of the other remaining variables, and the linear algebra raises no exception whatever the prior knowledge. A constant column always raises an exception without prior knowledge, although the default measure accepts it.", "quantifier": "for every number of rows and variables, all data, all changes of units and origins, all orders of the rows, every prior knowledge (where stated)", "why_tests_cant": "tests run the kernel measure on one data set with one scale", "anchors": ["lingam/direct_lingam.py:DirectLiNGAM.fit", "lingam/direct_lingam.py:DirectLiNGAM._search_causal_order_kernel", "lingam/direct_lingam.py:DirectLiNGAM._mutual_information", "lingam/direct_lingam.py:DirectLiNGAM._search_candidate"]}
{"id": "C241", "title": "Bootstrap results of VARLiNGAM and VARMALiNGAM are exact for every lag and every path through time", "statement": "In the bootstrap result of a time series model the cause number n_features * k + j stands for variable j, k steps earlier: each coefficient that exceeds the threshold in some sample is listed once, with the number of such samples, most frequent first. The probabilities come as one matrix per lag with the fractions of samples. get_paths lists every directed path of the graph unrolled over the lags that occurs in some sample, once, with the fraction of the samples that contain it and the median of its effect over those; requests against time are refused. For VARMALiNGAM the coefficients of past errors are counted after those of past values and have no influence on the paths.", "quantifier": "for all lists of samples with acyclic instantaneous matrices, numbers of variables, lags, thresholds and limits", "why_tests_cant": "quantifies over all samples; the number of paths is exponential", "anchors": ["lingam/var_lingam.py:VARBootstrapResult.get_paths", "lingam/varma_lingam.py:VARMABootstrapResult.get_paths", "lingam/bootstrap.py:BootstrapResult.get_causal_direction_counts", "lingam/bootstrap.py:BootstrapResult.get_probabilities"]}
{"id": "C242", "title": "CAM-UV finds the cause in two variables with an exactly independent error, but breaks ties by column number", "statement": "With two columns, HSIC, no prior knowledge and a level below 1, let the effect be a function of the cause plus an error that is exactly independent of the cause in the sample, let the additive model find the function up to a constant, and let HSIC report a p-value for the error. Then CAM-UV reports nothing if HSIC finds the two columns independent; otherwise it reports the arrow from cause to effect - except if the cause is the first column and the residual of its regression on the effect is exactly independent of the effect, too: then the reverse arrow is reported, and this does occur with tests that make no mistake. A hidden common cause (NaN) is never reported.", "quantifier": "for all samples of any size, functions, errors, survival functions that are 1 at 0 and below 1 elsewhere, additive models, levels and limits of explanatory variables", "why_tests_cant": "quantifies over all samples and functions; the tie of p-values does not occur in random data", "anchors": ["lingam/camuv.py:CAMUV.fit", "lingam/camuv.py:CAMUV._find_parents", "lingam/camuv.py:CAMUV._get_child", "lingam/camuv.py:CAMUV._get_residual", "lingam/hsic.py:hsic_test_gamma"]}
{"id": "C243", "title": "CAM-UV with HSIC does not depend on units, origins and the order of the rows", "statement": "CAM-UV with HSIC, with any level and prior knowledge, returns the same matrix and the same parents if the columns are measured in other units and from other origins - each column separately for num_explanatory_vals up to 2 (the default), by a common factor for larger values - and if the rows are listed in another order in which the first 100 rows stay among the first 100. This needs only that the predictions of the additive model follow units, origins and rows.", "quantifier": "for all data sets, additive models whose predictions follow units and rows, survival functions, levels, prior knowledge, limits, factors, origins and permutations", "why_tests_cant": "quantifies over all data sets, units and permutations; tests use one data set in one unit", "anchors": ["lingam/camuv.py:CAMUV.fit", "lingam/camuv.py:CAMUV._get_residual", "lingam/camuv.py:CAMUV._find_parents", "lingam/hsic.py:hsic_test_gamma"]}
{"id": "C244", "title": "RESIT ignores a common unit, but not the units of single columns once there are three of them", "statement": "RESIT returns the same order and matrix if all columns are measured in another common unit and from other origins, with two columns also if each is measured in its own new unit, and if the rows are listed in another order in which the first 100 rows stay among the first 100 - provided the predictions of the regressor follow units, origins and rows. With three columns the result does depend on the units: with least squares there are eight rows of data for which doubling one column puts another variable at the end of the causal order.", "quantifier": "for all data sets, regressors whose predictions follow units and rows, survival functions, levels, factors, origins and permutations; the dependence for every least squares regression, survival function and level", "why_tests_cant": "quantifies over all data sets and units; the dependence on units needs the exact value of the statistic", "anchors": ["lingam/resit.py:RESIT.fit", "lingam/resit.py:RESIT._estimate_order", "lingam/resit.py:RESIT._remove_edges", "lingam/hsic.py:hsic_test_gamma", "lingam/hsic.py:get_kernel_width"]}
{"id": "C245", "title": "The regression and the paths give the same total effect of a fitted model, unless edges are missing", "statement": "After DirectLiNGAM.fit the total effect can be computed in two ways: estimate_total_effect regresses the target on the source and its estimated parents, calculate_total_effect works with the estimated matrix. Both give exactly the same number for every ordered pair of different variables whenever the estimated errors (column minus its estimated combination) are uncorrelated in the sample and not constant; in particular whenever the fit kept every edge that its order allows and no column is an exact linear function of the ones before it. If an edge is missing (pruned or excluded by prior knowledge) they may differ: there are data with a prior knowledge for which every fit in the order of the columns gives 1/2 by the matrix and 1 by the regression.", "quantifier": "for all data sets, measures, prior knowledge, selections, least squares regressions and ordered pairs of variables; the difference for every measure and regression", "why_tests_cant": "an exact identity between two code paths over all data sets; tests compare neither of them on more than a few samples and not with each other", "anchors": ["lingam/base.py:_BaseLiNGAM.estimate_total_effect", "lingam/base.py:_BaseLiNGAM._estimate_adjacency_matrix", "lingam/utils/__init__.py:calculate_total_effect", "lingam/utils/__init__.py:predict_adaptive_lasso"]}
{"id": "C246", "title": "MultiGroupDirectLiNGAM: the two methods for total effects agree data set by data set, and a list of another length is cut silently", "statement": "After MultiGroupDirectLiNGAM.fit, estimate_total_effect (a regression in every data set) on the same list and estimate_total_effect2 (from the matrices) return the same list of effects for every ordered pair of different variables, if in each data set either every edge of the common order was kept and no column is an exact linear function of the ones before it, or the estimated errors are uncorrelated and not constant. estimate_total_effect accepts a list of another length than the fit and then answers for the common beginning only: the result has the smaller of the two lengths.", "quantifier": "for all lists of data sets, prior knowledge (hard or soft), selections, least squares regressions and ordered pairs of variables", "why_tests_cant": "an exact identity between two methods over all lists of data sets; tests only check the shape of the results", "anchors": ["lingam/multi_group_direct_lingam.py:MultiGroupDirectLiNGAM.estimate_total_effect", "lingam/multi_group_direct_lingam.py:MultiGroupDirectLiNGAM.estimate_total_effect2", "lingam/multi_group_direct_lingam.py:MultiGroupDirectLiNGAM.fit"]}
{"id": "C247", "title": "The combined tests of MultiGroupRCD keep their level if the data sets are independent of each other", "statement": "If the data sets are independent of each other and the p-value of a test is valid in every data set (at most u with probability at most u), the combined p-value is valid, and it is uniformly distributed if those of the data sets are. So independence and normality are wrongly rejected with probability at most ind_alpha and shapiro_alpha (exactly, for uniform p-values). If all tests of correlation are valid, MultiGroupRCD reports anything at all - an ancestor, an arrow or a hidden common cause - with probability at most cor_alpha times the number of pairs of variables, and so does RCD. If the same data set is given twice, the level is exceeded.", "quantifier": "for every number of data sets, rows and variables, all probability spaces and distributions of the data, all levels (the excess: all levels from 0 to 1/9)", "why_tests_cant": "a statement about probabilities over all possible samples; tests see single samples with fixed seeds", "anchors": ["lingam/multi_group_rcd.py:MultiGroupRCD._is_non_gaussianity", "lingam/multi_group_rcd.py:MultiGroupRCD._is_correlated", "lingam/multi_group_rcd.py:MultiGroupRCD._is_independent", "lingam/multi_group_rcd.py:MultiGroupRCD.fit", "lingam/rcd.py:RCD.fit"]}
{"id": "C248", "title": "MultiGroupRCD finds the direction for a pair whose error is exactly independent of the cause in every data set", "statement": "Two variables, and in every data set one is a linear function of the other plus an error that is exactly independent of it in the sample, with coefficients and errors of its own. Then MultiGroupRCD (HSIC) never reports an arrow from the effect to the cause. It reports the arrow from cause to effect, with the exact coefficient of every data set, if and only if the combined p-values reject normality of both variables and their lack of correlation and do not accept the residual of the cause as independent of the effect. Otherwise it reports a hidden common cause in all data sets if the two are found to be correlated, and nothing in any data set if not.", "quantifier": "for every number of data sets and rows, all coefficients, all values of the cause and the errors, both orders of the columns, all levels with ind_alpha below 1, with and without MLHSICR", "why_tests_cant": "a guarantee over all data of a kind and an equivalence; tests run single data sets and compare with one expected graph", "anchors": ["lingam/multi_group_rcd.py:MultiGroupRCD.fit", "lingam/multi_group_rcd.py:MultiGroupRCD._extract_ancestors", "lingam/multi_group_rcd.py:MultiGroupRCD._is_independent", "lingam/hsic.py:hsic_test_gamma"]}
{"id": "C249", "title": "MultiGroupCAMUV with HSIC does not depend on units, origins, the order of the rows and the order of the data sets", "statement": "MultiGroupCAMUV with HSIC, with any level and prior knowledge, returns the same matrix and the same parents if every data set is measured in units and from origins of its own (each column separately for num_explanatory_vals up to 2, the default; by a factor common to the columns of a data set for larger values), if the rows of a data set are listed in another order in which its first 100 rows stay among the first 100, and if the data sets are listed in another order. The first two claims need that the predictions of the additive model follow units, origins and rows; the last one needs nothing. No arrow that the prior knowledge excludes is reported.", "quantifier": "for every number of data sets, rows and columns, all data, additive models whose predictions follow units and rows, survival functions, levels, prior knowledge, limits, factors, origins and permutations", "why_tests_cant": "quantifies over all lists of data sets, units and permutations; tests use one list in one unit", "anchors": ["lingam/multi_group_camuv.py:MultiGroupCAMUV.fit", "lingam/multi_group_camuv.py:MultiGroupCAMUV._is_independent_by", "lingam/multi_group_camuv.py:MultiGroupCAMUV._get_residual", "lingam/hsic.py:get_kernel_width", "lingam/hsic.py:hsic_test_gamma"]}
{"id": "C250", "title": "MultiGroupCAMUV finds the cause in two variables with exactly independent errors; one data set that contradicts the reverse direction is enough", "statement": "With two columns, HSIC, no prior knowledge and a level below 1, let the effect be in every data set a function of the cause plus an error that is exactly independent of the cause, with functions and errors of its own, let the additive model find the functions up to constants, and let HSIC report a p-value for every error. Then MultiGroupCAMUV reports nothing if the combined test finds the two columns independent; otherwise it reports the arrow from cause to effect - except if the cause is the first column and in every single data set the reverse direction fits exactly, too: then the reverse arrow is reported. A hidden common cause is never reported.", "quantifier": "for every number of data sets and rows, all functions, errors, survival functions that are 1 at 0 and below 1 elsewhere, additive models, levels and limits of explanatory variables", "why_tests_cant": "quantifies over all lists of data sets and functions", "anchors": ["lingam/multi_group_camuv.py:MultiGroupCAMUV.fit", "lingam/multi_group_camuv.py:MultiGroupCAMUV._get_child", "lingam/multi_group_camuv.py:MultiGroupCAMUV._is_independent_by", "lingam/hsic.py:hsic_test_gamma"]}
{"id": "C251", "title": "Error rates of CAM-UV and MultiGroupCAMUV", "statement": "If HSIC is valid for any two columns (its p-value is at most u with probability at most u, as it should be for independent columns), CAMUV with HSIC reports anything at all - an arrow or a hidden common cause - with probability at most alpha times the number of pairs of columns. The same holds for MultiGroupCAMUV if the data sets are independent of each other. It holds for every prior knowledge and every num_explanatory_vals: the further tests of the search add nothing.", "quantifier": "for every number of data sets, rows and columns, all probability spaces and distributions of the data, all levels, prior knowledge and limits", "why_tests_cant": "a statement about probabilities over all possible samples; tests see single samples with fixed seeds", "anchors": ["lingam/camuv.py:CAMUV.fit", "lingam/camuv.py:CAMUV._get_neighborhoods", "lingam/multi_group_camuv.py:MultiGroupCAMUV.fit", "lingam/multi_group_camuv.py:MultiGroupCAMUV._get_neighborhoods", "lingam/multi_group_camuv.py:MultiGroupCAMUV._is_independent_by"]}
{"id": "C252", "title": "Which names, data and graphs CausalBasedSimulator.train accepts, how it reads a graph, and what a refused call leaves behind", "statement": "cd_algo_name is None, DirectLiNGAM, ICALiNGAM, BottomUpParceLiNGAM or VARLiNGAM; another string raises ValueError and anything else TypeError. Data that are not a table of finite numbers raise ValueError. As causal_graph exactly the following is accepted: for the first three a square matrix of finite numbers with one row per column of the data and without cycle; for BottomUpParceLiNGAM also with NaN, read as no edge; for VARLiNGAM an array of one or more such matrices (the first one for the present, the others for lags 1, 2, ...), of which only the first must be without cycle. Everything else raises ValueError. After an accepted call the simulator holds exactly these coefficients and data: the variables at past times have no parents, and a variable at lag l is the data shifted by l rows. After a call that raises, the object is as before, so that run goes on with the model trained before.", "quantifier": "for all strings and other names, arrays of every number of dimensions, size and entries (numbers, NaN, infinity), labels, numbers of lags and earlier states of the object", "why_tests_cant": "quantifies over all shapes and entries of arrays; tests reject a handful of ill-formed arguments", "anchors": ["lingam/causal_based_simulator.py:CausalBasedSimulator.train", "lingam/causal_based_simulator.py:CausalBasedSimulator._dispatch_impl", "lingam/causal_based_simulator.py:CBSILiNGAM", "lingam/causal_based_simulator.py:CBSIUnobsCommonCauseLiNGAM", "lingam/causal_based_simulator.py:CBSITimeSeriesLiNGAM"]}
{"id": "C253", "title": "Estimators passed to CausalDataGenerator and visualize_nonlinear_causal_effect", "statement": "CausalDataGenerator.fit accepts exactly estimators of the right kind: for a numeric variable no classifier, for a categorical one no regressor and with predict_proba; the wrong kind raises TypeError, a missing predict_proba RuntimeError. An adjustment column that is missing raises KeyError, and a fit that raises has trained no estimator. visualize_nonlinear_causal_effect makes the same checks. One and the same estimator object may be passed for both equations or for several generators: each fitted generator keeps its own trained models, so that generate behaves as if every equation had an estimator of its own.", "quantifier": "for all data frames, roles of columns, estimators, objects passed in any combination, later states of these objects and arguments of generate", "why_tests_cant": "aliasing of objects across calls: tests pass fresh estimators and use them once", "anchors": ["lingam/experimental/cdg.py:CausalDataGenerator.fit", "lingam/experimental/cdg.py:CausalDataGenerator._is_sklearn_estimator", "lingam/experimental/cdg.py:CausalDataGenerator._make_model", "lingam/experimental/cdg.py:CausalDataGenerator.generate", "lingam/utils/_visualize_nonlinear_causal_effect.py:_check_estimator"]}
{"id": "C254", "title": "DirectLiNGAM finds the order of the distribution on all large samples", "statement": "Let the rows of the data be independent draws from one distribution with finite variances in which no linear combination of the variables is constant. Let the distribution determine an order: among the variables that remain, with the linear dependence on the earlier ones removed, the next variable has the strictly smallest penalty, where the penalty is the one of DirectLiNGAM with expectations instead of averages. Then with probability 1 there is a sample size from which on DirectLiNGAM (default measure, no prior knowledge) returns exactly that order. In particular the order of a data set without ties is found on all large samples of rows that are drawn from it with replacement.", "quantifier": "for all numbers of variables, probability spaces and distributions with finite variances, and all orders", "why_tests_cant": "a statement about infinitely many sample sizes and all distributions; tests see single samples with fixed seeds", "anchors": ["lingam/direct_lingam.py:DirectLiNGAM.fit", "lingam/direct_lingam.py:DirectLiNGAM._search_causal_order", "lingam/direct_lingam.py:DirectLiNGAM._diff_mutual_info", "lingam/direct_lingam.py:DirectLiNGAM._entropy", "lingam/direct_lingam.py:DirectLiNGAM._residual"]}
{"id": "C255", "title": "The pruning keeps every predictor whose omission would raise the residual sum of squares enough", "statement": "For a target with m predictors and N > m + 1 rows, let R be the residual sum of squares of the regression on all predictors, not 0, and let every regression without a certain predictor leave at least R'. If (N - m - 1) (R' - R) > m log(N) R, the pruning by the adaptive Lasso keeps that predictor: the coefficients are those of one least squares regression on a set of predictors that contains it, and 0 for the predictors outside of the set.", "quantifier": "for all data, targets, predictors, least squares solvers and Lasso paths that start at zero and reach a least squares solution", "why_tests_cant": "quantifies over all data sets and all solvers", "anchors": ["lingam/utils/__init__.py:predict_adaptive_lasso"]}
{"id": "C256", "title": "The adjacency matrix of DirectLiNGAM converges to the coefficients of the regressions in the causal order", "statement": "Let the rows be independent draws from one distribution with finite variances in which no linear combination of the variables is constant. In whatever order the variables are put, the matrix that LiNGAM estimates in that order converges with probability 1 to the coefficients of the regressions of each variable on those before it. If the distribution determines an order (C254), DirectLiNGAM returns that order on all large samples and its matrix converges. If the data follow a linear model in that order with uncorrelated disturbances, the limits are the coefficients of the model: on all large samples every effect that is there has the right sign, and every entry is as close to the coefficient as wanted. The pruning never removes an effect that is there from large samples.", "quantifier": "for all numbers of variables, distributions with finite variances, orders, coefficients, least squares solvers and Lasso paths", "why_tests_cant": "a statement about infinitely many sample sizes, all distributions and all solvers; tests see single samples with fixed seeds", "anchors": ["lingam/base.py:_BaseLiNGAM._estimate_adjacency_matrix", "lingam/utils/__init__.py:predict_adaptive_lasso", "lingam/direct_lingam.py:DirectLiNGAM.fit"]}
{"id": "C257", "title": "There are linear non-Gaussian models for which DirectLiNGAM finds the wrong order on all large samples", "statement": "The identifiability of LiNGAM (linear, acyclic, independent non-Gaussian disturbances) does not carry over to DirectLiNGAM with its default measure, because the entropies are approximated. Let the first variable be one disturbance and the second the sum of the first and another disturbance, where the disturbances are independent, have the same distribution and take the values -1, 0 and 1 with the probabilities 5/24, 14/24 and 5/24. With probability 1 there is a sample size from which on DirectLiNGAM puts the second variable first, and its adjacency matrix tends to an effect 1/2 of the second variable on the first and 0 of the first on the second. The wrong order is also found on the data of 576 rows in which every combination occurs as often as its probability says.", "quantifier": "for all infinite sequences of independent rows outside of an event of probability 0, all sample sizes from some size on, all least squares solvers and Lasso paths", "why_tests_cant": "a statement about infinitely many sample sizes; tests use distributions for which the approximation happens to be good enough", "anchors": ["lingam/direct_lingam.py:DirectLiNGAM._entropy", "lingam/direct_lingam.py:DirectLiNGAM._diff_mutual_info", "lingam/direct_lingam.py:DirectLiNGAM._search_causal_order", "lingam/direct_lingam.py:DirectLiNGAM.fit"]}
{"id": "C258", "title": "In every causal order the estimated matrix converges to the true one, also with true prior knowledge", "statement": "Let the rows be independent draws from a linear acyclic model with uncorrelated disturbances and finite variances in which no linear combination of the variables is constant. With probability 1: whatever method finds the causal orders, and even if it finds another one on every sample, as long as on all large samples they are causal orders of the model and the prior knowledge (if any) forbids no edge of the model, the adjacency matrices converge to the coefficients of the model. In particular this holds for DirectLiNGAM with prior knowledge.", "quantifier": "for all models, numbers of variables, sequences of orders, prior knowledge, least squares solvers and Lasso paths", "why_tests_cant": "a statement about infinitely many sample sizes, all models and all orders", "anchors": ["lingam/base.py:_BaseLiNGAM._estimate_adjacency_matrix", "lingam/utils/__init__.py:predict_adaptive_lasso", "lingam/direct_lingam.py:DirectLiNGAM.fit"]}
{"id": "C259", "title": "Estimated total effects converge to the true ones", "statement": "For data as in C258, with probability 1 the result of estimate_total_effect converges to the total effect of the model, for every pair of variables and whichever of the two comes first, if on all large samples the estimated parents of the source include its causes and all come before it in a causal order. After DirectLiNGAM.fit on data from a linear model whose order is the one that the distribution determines (C254), both the regression of estimate_total_effect and the sum over paths of calculate_total_effect on the estimated matrix are as close to the total effects of the model as wanted on all large samples. Edges that were not pruned although there is no effect do not matter.", "quantifier": "for all models, pairs of variables, numbers of variables, least squares solvers and Lasso paths", "why_tests_cant": "a statement about infinitely many sample sizes and all models", "anchors": ["lingam/base.py:_BaseLiNGAM.estimate_total_effect", "lingam/utils/__init__.py:calculate_total_effect", "lingam/direct_lingam.py:DirectLiNGAM.fit"]}
{"id": "C260", "title": "Among unrelated variables the edges disappear", "statement": "Let the rows be independent draws from one distribution with finite variances in which no linear combination of the variables is constant. If a variable is independent of each of the other ones, the probability that DirectLiNGAM (without prior knowledge) fails or gives that variable any incoming edge tends to 0 as the number of rows grows. If all variables are independent of each other and none is constant, the probability that fit returns the matrix without any edge tends to 1. Already on one sample, the pruning drops all m predictors of a target if the F-statistic of the regression of the target on them is at most log(N)/m.", "quantifier": "for all distributions, numbers of variables, sample sizes, least squares solvers and Lasso paths", "why_tests_cant": "a statement about infinitely many sample sizes and all distributions; each single sample can have false edges", "anchors": ["lingam/direct_lingam.py:DirectLiNGAM.fit", "lingam/utils/__init__.py:predict_adaptive_lasso", "lingam/base.py:_BaseLiNGAM._estimate_adjacency_matrix"]}
{"id": "C261", "title": "With a causal order exactly the true edges remain", "statement": "Let the rows be independent draws from a linear acyclic model with independent disturbances and finite variances in which no linear combination of the variables is constant. The probability that DirectLiNGAM.fit finds a causal order of the model but returns a matrix with a false edge, without a true one, or with a coefficient that is wrong by more than ε times the square root of log(N)/N, tends to 0 as the number N of rows grows, for every ε > 0; the same holds for the estimated matrix of every causal order, whatever method found it, also with prior knowledge that forbids no true edge. Already on one sample the pruning keeps exactly the predictors whose removal raises the residual sum of squares by more than BIC charges for all predictors, if each of the other ones has a small enough least squares coefficient.", "quantifier": "for all models, numbers of variables, causal orders, true prior knowledge, sample sizes, least squares solvers and Lasso paths", "why_tests_cant": "a statement about infinitely many sample sizes and all models; each single sample can have false edges", "anchors": ["lingam/direct_lingam.py:DirectLiNGAM.fit", "lingam/utils/__init__.py:predict_adaptive_lasso", "lingam/base.py:_BaseLiNGAM._estimate_adjacency_matrix"]}
{"id": "C262", "title": "DirectLiNGAM finds the order and exactly the true edges with probability tending to 1", "statement": "Let the rows be independent draws from one distribution with finite variances in which no linear combination of the variables is constant, and let the comparisons of the variables have a strict order o in the distribution (as in C254). Without prior knowledge the probability that DirectLiNGAM.fit finds another order than o tends to 0 as the number of rows grows. If moreover the distribution is that of a linear acyclic model in the order o with independent disturbances, the probability that fit succeeds, causal_order_ is o, adjacency_matrix_ has nonzero entries exactly at the edges of the model, and every entry differs from the coefficient of the model by at most ε times the square root of log(N)/N tends to 1, for every ε > 0.", "quantifier": "for all distributions, models, numbers of variables, least squares solvers and Lasso paths", "why_tests_cant": "a statement about infinitely many sample sizes and all models; on each single sample order and edges can be wrong", "anchors": ["lingam/direct_lingam.py:DirectLiNGAM.fit", "lingam/utils/__init__.py:predict_adaptive_lasso", "lingam/base.py:_BaseLiNGAM._estimate_adjacency_matrix"]}
{"id": "C263", "title": "Prior knowledge that directs the edges replaces the comparison of the variables", "statement": "If hard prior knowledge contains no contradiction, DirectLiNGAM finds an order on all data, and the order respects everything that follows from the prior knowledge, also through several variables. If the rows are independent draws from a linear acyclic model with uncorrelated disturbances and finite variances in which no linear combination of the variables is constant, and the prior knowledge implies the direction of every edge and denies none, then fit succeeds whenever there are more than n+1 rows for n variables, causal_order_ is a causal order of the model, and adjacency_matrix_ converges to the coefficients with probability 1, whatever the distribution of the disturbances (also Gaussian); the total effects of estimate_total_effect and of calculate_total_effect on that matrix converge to those of the model. If the disturbances are independent, the probability that the edges are exactly those of the model and every entry is right up to ε times the square root of log(N)/N tends to 1 with the number N of rows, for every ε > 0.", "quantifier": "for all models, distributions, numbers of variables, prior knowledge as described, least squares solvers and Lasso paths", "why_tests_cant": "a statement about infinitely many sample sizes, all models and all prior knowledge", "anchors": ["lingam/direct_lingam.py:DirectLiNGAM.fit", "lingam/direct_lingam.py:DirectLiNGAM._extract_partial_orders", "lingam/utils/__init__.py:predict_adaptive_lasso", "lingam/base.py:_BaseLiNGAM._estimate_adjacency_matrix", "lingam/base.py:_BaseLiNGAM.estimate_total_effect", "lingam/utils/__init__.py:calculate_total_effect"]}
{"id": "C264", "title": "The direction between two variables that can be exchanged is a matter of chance, also for Gaussian models", "statement": "If exchanging two variables does not change the distribution of the data, DirectLiNGAM without prior knowledge puts the second column first with probability at most 1/2, for every number of rows. This holds for independent rows with the variables aU+bV and bU+aV for independent U and V of one distribution, and for every linear model in which a Gaussian cause (second column) has an effect (first column) with a Gaussian disturbance: whatever the effect, the means and the standard deviations, the true order is found with probability at most 1/2, and more rows do not help. In the distribution of variables that can be exchanged neither of them comes first, so the condition under which DirectLiNGAM finds the order on large samples (C254) is not met.", "quantifier": "for all distributions as described, numbers of rows, effects, means and standard deviations", "why_tests_cant": "a statement about probabilities for all sample sizes and continuous distributions", "anchors": ["lingam/direct_lingam.py:DirectLiNGAM.fit", "lingam/direct_lingam.py:DirectLiNGAM._search_causal_order"]}
