{
 "claims": [
  {
   "property": "C01",
   "status": "proved",
   "theorems": [
    "Verif.Direct.C01_order_is_permutation",
    "Verif.Direct.C01_order_is_permutation_pk"
   ],
   "note": "scores are an arbitrary oracle"
  },
  {
   "property": "C02",
   "status": "proved",
   "theorems": [
    "Verif.Direct.C02_edges_follow_order",
    "Verif.Direct.C02_acyclic",
    "Verif.Direct.C02_diagonal_zero"
   ],
   "note": "regressions are an arbitrary oracle"
  },
  {
   "property": "C03",
   "status": "proved",
   "theorems": [
    "Verif.Direct.C03_prior_zero_no_edge"
   ],
   "note": "hard and soft, all measures"
  },
  {
   "property": "C04",
   "status": "proved",
   "theorems": [
    "Verif.Direct.C04_hard_prior_respected"
   ],
   "note": "measures pwling and kernel; see C53 for pwling_fast"
  },
  {
   "property": "C05",
   "status": "proved",
   "theorems": [
    "Verif.Direct.C05_hard_prior_fails_iff_cyclic"
   ],
   "note": "measures pwling and kernel; see C53 for pwling_fast"
  },
  {
   "property": "C06",
   "status": "proved",
   "theorems": [
    "Verif.Direct.C06_soft_prior_succeeds",
    "Verif.Direct.C06_soft_prior_can_fail",
    "Verif.Direct.C06_soft_step_takes_best_candidate"
   ],
   "note": "success for non-contradicting paths, concrete failure for contradicting ones"
  },
  {
   "property": "C07",
   "status": "proved",
   "theorems": [
    "Verif.Direct.C07_make_prior_knowledge"
   ],
   "note": "non-negative indices; IndexError modelled"
  },
  {
   "property": "C08",
   "status": "proved",
   "theorems": [
    "Verif.Direct.C08_exo_sink_carry_through"
   ],
   "note": ""
  },
  {
   "property": "C09",
   "status": "proved",
   "theorems": [
    "Verif.Paths.C09_paths_exact",
    "Verif.Paths.C09_same_index_error"
   ],
   "note": ""
  },
  {
   "property": "C10",
   "status": "proved",
   "theorems": [
    "Verif.Paths.C10_effects_are_products"
   ],
   "note": ""
  },
  {
   "property": "C100",
   "status": "partial",
   "theorems": [
    "Verif.Rcd.C100_pair_search_sound_partial",
    "Verif.Rcd.C100_default_false_edge"
   ],
   "note": "Proved for max_explanatory_num = 1 with any hidden causes. False for the default 2: a false ancestor (C101) and a directed edge from a variable without effect (witness with exact tests)."
  },
  {
   "property": "C101",
   "status": "partial",
   "theorems": [
    "Verif.Rcd.C101_false_ancestor_hidden",
    "Verif.Rcd.C101_false_ancestor_observed",
    "Verif.Rcd.C101_one_or_two_partial"
   ],
   "note": "False: with a hidden common cause the default 2 records a variable without any effect; without hidden causes 3 does (witnesses with exact tests). Holds for 1 and 2 without hidden causes (C99)."
  },
  {
   "property": "C102",
   "status": "proved",
   "theorems": [
    "Verif.Var.C102_var_selection",
    "Verif.Var.C102_var_undefined",
    "Verif.Var.C102_var_given",
    "Verif.Varma.C102_varma_selection",
    "Verif.Varma.C102_varma_given"
   ],
   "note": "the external VAR / VARMAX estimations are oracles"
  },
  {
   "property": "C103",
   "status": "partial",
   "theorems": [
    "Verif.Var.C103_rounds",
    "Verif.Var.C103_same_analysis_partial",
    "Verif.Var.C103_criterion_ignored",
    "Verif.Var.C103_fitted_reuses",
    "Verif.Var.C103_bootstrap_other_lags",
    "Verif.Varma.C103_varma_rounds"
   ],
   "note": "False: the criterion is switched off in the repetitions, and after a fit the stored VAR coefficients are reused (proved for all inputs, witness). Without a criterion every repetition is a fit with the settings the object has."
  },
  {
   "property": "C104",
   "status": "proved",
   "theorems": [
    "Verif.Var.C104_totals",
    "Verif.Var.C104_all_entries"
   ],
   "note": "the causal order is a permutation"
  },
  {
   "property": "C105",
   "status": "partial",
   "theorems": [
    "Verif.Varma.C105_pure_models_fail",
    "Verif.Varma.C105_succeeds_partial"
   ],
   "note": "False for pure AR and pure MA models: always a TypeError (proved for all inputs). Holds otherwise."
  },
  {
   "property": "C106",
   "status": "partial",
   "theorems": [
    "Verif.Varma.C106_pruning_regression_partial",
    "Verif.Varma.C106_wraps_around"
   ],
   "note": "Proved except that the first rows use values from the end of the series (proved for all inputs)."
  },
  {
   "property": "C107",
   "status": "proved",
   "theorems": [
    "Verif.Lim.C107_best_orientation",
    "Verif.Lim.C107_best_deletion",
    "Verif.Lim.C107_best_addition",
    "Verif.Lim.C107_one_way"
   ],
   "note": "acyclicity is the code's own test h < h_tol (see C43 for its meaning); exact arithmetic"
  },
  {
   "property": "C108",
   "status": "proved",
   "theorems": [
    "Verif.Simulator.C108_shuffle_permutes_rows",
    "Verif.Simulator.C108_shuffled_training_rows"
   ],
   "note": "models predict row by row; no discrete variables"
  },
  {
   "property": "C109",
   "status": "partial",
   "theorems": [
    "Verif.Simulator.C109_intercept_dropped",
    "Verif.Simulator.C109_restated_coefficients_partial"
   ],
   "note": "False: the fitted intercept is dropped (proved for all inputs). Holds exactly when the intercept is 0."
  },
  {
   "property": "C11",
   "status": "proved",
   "theorems": [
    "Verif.Paths.C11_terminates",
    "Verif.Paths.C11_findAllPaths_total",
    "Verif.Paths.C11_loop_is_iteration",
    "Verif.Paths.C11_stack_bounded"
   ],
   "note": ""
  },
  {
   "property": "C110",
   "status": "proved",
   "theorems": [
    "Verif.Oct.C110_out_of_sample",
    "Verif.Oct.C110_every_row_once"
   ],
   "note": "the estimated graph has no loop at the variable"
  },
  {
   "property": "C111",
   "status": "proved",
   "theorems": [
    "Verif.Oct.C111_monotone",
    "Verif.Oct.C111_perfect"
   ],
   "note": "the logarithm is any monotone function with value 0 at 1; log 0 = -infinity is a number in the model"
  },
  {
   "property": "C112",
   "status": "proved",
   "theorems": [
    "Verif.Lim.C112_lina_result",
    "Verif.Lim.C112_lina_first"
   ],
   "note": "the optimiser is an oracle; exact arithmetic in any Archimedean ordered field"
  },
  {
   "property": "C113",
   "status": "proved",
   "theorems": [
    "Verif.Hsic.C113_hsic_symmetric"
   ],
   "note": "default bandwidth; exact real arithmetic"
  },
  {
   "property": "C114",
   "status": "proved",
   "theorems": [
    "Verif.Hsic.C114_hsic_units"
   ],
   "note": "default bandwidth; exact real arithmetic"
  },
  {
   "property": "C115",
   "status": "partial",
   "theorems": [
    "Verif.Hsic.C115_hsic_row_order_violated",
    "Verif.Hsic.C115_hsic_row_order_partial",
    "Verif.Hsic.C115_hsic_row_order_small_partial"
   ],
   "note": "False for every number of observations above 100 (proved). Holds for at most 100 observations, and for reorderings within the first 100 and within the rest."
  },
  {
   "property": "C116",
   "status": "proved",
   "theorems": [
    "Verif.Hsic.C116_hsic_statistic",
    "Verif.Hsic.C116_hsic_p_value",
    "Verif.Hsic.C116_hsic_p_range"
   ],
   "note": "default bandwidth; exact real arithmetic; the gamma survival function is an oracle"
  },
  {
   "property": "C117",
   "status": "proved",
   "theorems": [
    "Verif.Hsic.C117_hsic_tiny",
    "Verif.Hsic.C117_hsic_small",
    "Verif.Hsic.C117_hsic_nan",
    "Verif.Hsic.C117_hsic_late_variation",
    "Verif.Hsic.C117_hsic_p_needs"
   ],
   "note": "default bandwidth; exact real arithmetic"
  },
  {
   "property": "C118",
   "status": "proved",
   "theorems": [
    "Verif.HighDim.C118_order_and_matrix",
    "Verif.HighDim.C118_entries"
   ],
   "note": "exact rational arithmetic; pseudo inverse, Lasso and set order are oracles"
  },
  {
   "property": "C119",
   "status": "proved",
   "theorems": [
    "Verif.HighDim.C119_first_variable"
   ],
   "note": "exact rational arithmetic"
  },
  {
   "property": "C12",
   "status": "partial",
   "theorems": [
    "Verif.Paths.C12_cyclic_error_sound",
    "Verif.Paths.C12_cycle_reported_partial",
    "Verif.Paths.C12_cycle_not_reported",
    "Verif.Paths.C12_repeated_node"
   ],
   "note": "The code violates the full claim: cycles through an end point are not always reported (negation proved with a witness). Proved: an error implies a cycle; a cycle avoiding both end points and reachable from the source is reported."
  },
  {
   "property": "C120",
   "status": "partial",
   "theorems": [
    "Verif.HighDim.C120_units_decide_pair",
    "Verif.HighDim.C120_origin_decides_pair",
    "Verif.HighDim.C120_large_values_column_order",
    "Verif.HighDim.C120_units_partial"
   ],
   "note": "False: for every pair with nonzero statistics the units decide the order, and large values give the column order (both proved). The data are not centred: for correlated variables, the second one symmetric, a suitable origin of the first reverses the order (proved). Holds for changes of sign."
  },
  {
   "property": "C121",
   "status": "partial",
   "theorems": [
    "Verif.HighDim.C121_order_not_recovered",
    "Verif.HighDim.C121_order_recovered_partial"
   ],
   "note": "False (witness with four variables and every sign combination of the errors). Holds if every variable has at most one direct cause."
  },
  {
   "property": "C122",
   "status": "partial",
   "theorems": [
    "Verif.HighDim.C122_single_set"
   ],
   "note": "False: one set is tried per variable and step; with more than J possible parents some set is never tried (proved for all states)."
  },
  {
   "property": "C123",
   "status": "proved",
   "theorems": [
    "Verif.Drawing.C123_arrows",
    "Verif.Drawing.C123_nothing_else",
    "Verif.Drawing.C123_draws",
    "Verif.Drawing.C123_shape"
   ],
   "note": "nonnegative limit; without a prediction model; distinct labels"
  },
  {
   "property": "C124",
   "status": "partial",
   "theorems": [
    "Verif.Drawing.C124_above_diagonal_lost",
    "Verif.Drawing.C124_unknown_partial"
   ],
   "note": "False: a NaN above the diagonal only is not drawn (proved for all such entries). Holds for symmetric NaN entries."
  },
  {
   "property": "C125",
   "status": "proved",
   "theorems": [
    "Verif.Drawing.C125_path_arrows",
    "Verif.Drawing.C125_path_nodes",
    "Verif.Drawing.C125_path_ends",
    "Verif.Drawing.C125_cycle_arrows"
   ],
   "note": "networkx lists the simple paths and cycles correctly"
  },
  {
   "property": "C126",
   "status": "proved",
   "theorems": [
    "Verif.Drawing.C126_levels",
    "Verif.Drawing.C126_others",
    "Verif.Drawing.C126_arrows"
   ],
   "note": "networkx computes shortest path lengths correctly (modelled)"
  },
  {
   "property": "C127",
   "status": "partial",
   "theorems": [
    "Verif.Drawing.C127_isolated_target_twice",
    "Verif.Drawing.C127_each_once_partial"
   ],
   "note": "False: a target without arrows is drawn twice (proved for all). Holds for connected targets in acyclic graphs."
  },
  {
   "property": "C128",
   "status": "partial",
   "theorems": [
    "Verif.Drawing.C128_unknown_rejected",
    "Verif.Drawing.C128_limit_differs",
    "Verif.Drawing.C128_same_arrows_partial"
   ],
   "note": "False: NaN entries always raise, and a coefficient equal to the limit is shown by one function only (both proved). Holds for other coefficients, connected targets and acyclic graphs."
  },
  {
   "property": "C129",
   "status": "partial",
   "theorems": [
    "Verif.Drawing.C129_nodes_never",
    "Verif.Drawing.C129_arrows_partial",
    "Verif.Drawing.C129_end_points",
    "Verif.Drawing.C129_border"
   ],
   "note": "False for nodes: no node is ever emphasised (proved for all inputs). Holds for arrows."
  },
  {
   "property": "C13",
   "status": "proved",
   "theorems": [
    "Verif.Paths.C13_total_effect_is_inverse_entry",
    "Verif.Paths.C13_one_sub_isUnit",
    "Verif.Paths.C13_total_effect_is_path_sum",
    "Verif.Paths.C13_bad_indices_rejected",
    "Verif.Paths.C13_discrete_variables"
   ],
   "note": "exact arithmetic"
  },
  {
   "property": "C130",
   "status": "partial",
   "theorems": [
    "Verif.DataUtils.C130_residuals_partial",
    "Verif.DataUtils.C130_idempotent",
    "Verif.DataUtils.C130_order",
    "Verif.DataUtils.C130_integer_violated"
   ],
   "note": "False for integer arrays, whose residuals are truncated (witness). Holds for floating point arrays; exact arithmetic; the regression satisfies the normal equations."
  },
  {
   "property": "C131",
   "status": "proved",
   "theorems": [
    "Verif.DataUtils.C131_model_kept"
   ],
   "note": "floating point arrays; exact arithmetic; the regression satisfies the normal equations"
  },
  {
   "property": "C132",
   "status": "proved",
   "theorems": [
    "Verif.Score.C132_units",
    "Verif.Score.C132_shift",
    "Verif.Score.C132_nan"
   ],
   "note": "exact real arithmetic"
  },
  {
   "property": "C133",
   "status": "partial",
   "theorems": [
    "Verif.Score.C133_density_violated",
    "Verif.Score.C133_laplace_partial"
   ],
   "note": "False: the integral is sqrt(2) exp(-0.35) < 1 (proved). The log-likelihood is that of Laplace errors up to a constant per observation."
  },
  {
   "property": "C134",
   "status": "proved",
   "theorems": [
    "Verif.DataUtils.C134_equations",
    "Verif.DataUtils.C134_latents",
    "Verif.DataUtils.C134_ordinals"
   ],
   "note": "the description handed to semopy; the fit indices are not modelled"
  },
  {
   "property": "C135",
   "status": "partial",
   "theorems": [
    "Verif.DataUtils.C135_coefficients_partial",
    "Verif.DataUtils.C135_coefficients_changed"
   ],
   "note": "False: entries with more than six decimals are rounded (proved for all). Holds up to half of the sixth decimal."
  },
  {
   "property": "C136",
   "status": "proved",
   "theorems": [
    "Verif.Score.C136_local",
    "Verif.Score.C136_pattern"
   ],
   "note": "exact real arithmetic; regressions are oracles"
  },
  {
   "property": "C137",
   "status": "partial",
   "theorems": [
    "Verif.Score.C137_last_parent_violated",
    "Verif.Score.C137_sign_violated"
   ],
   "note": "False: only the last cause counts and the sign is reversed (both proved)."
  },
  {
   "property": "C138",
   "status": "proved",
   "theorems": [
    "Verif.Score.C138_frequency"
   ],
   "note": "exact real arithmetic"
  },
  {
   "property": "C139",
   "status": "proved",
   "theorems": [
    "Verif.Score.C139_units",
    "Verif.Score.C139_comparison"
   ],
   "note": "exact real arithmetic; least squares satisfies the normal equations"
  },
  {
   "property": "C14",
   "status": "proved",
   "theorems": [
    "Verif.Paths.C14_no_effect_backwards",
    "Verif.Boot.C14_bootstrap_zero"
   ],
   "note": ""
  },
  {
   "property": "C140",
   "status": "proved",
   "theorems": [
    "Verif.Pairwise.C140_order",
    "Verif.Pairwise.C140_coefficients"
   ],
   "note": "exact real arithmetic; the order is computed without oracles, least squares is an oracle with the normal equations"
  },
  {
   "property": "C141",
   "status": "proved",
   "theorems": [
    "Verif.Pairwise.C141_rows"
   ],
   "note": "exact real arithmetic"
  },
  {
   "property": "C142",
   "status": "partial",
   "theorems": [
    "Verif.Pairwise.C142_columns_partial",
    "Verif.Pairwise.C142_ties_violated",
    "Verif.Pairwise.C142_columns_violated"
   ],
   "note": "False for ties: the first column wins (proved for all data in which exchanging the columns only reorders the rows). Holds if one variable is strictly best at every step."
  },
  {
   "property": "C143",
   "status": "proved",
   "theorems": [
    "Verif.Pairwise.C143_pair",
    "Verif.Pairwise.C143_antisymmetric"
   ],
   "note": "exact real arithmetic"
  },
  {
   "property": "C144",
   "status": "proved",
   "theorems": [
    "Verif.Pairwise.C144_order",
    "Verif.Pairwise.C144_found"
   ],
   "note": "exact real arithmetic"
  },
  {
   "property": "C145",
   "status": "proved",
   "theorems": [
    "Verif.FCorr.C145_units",
    "Verif.FCorr.C145_symmetric"
   ],
   "note": "exact real arithmetic; for the symmetry the eigenvalue routines are exact"
  },
  {
   "property": "C146",
   "status": "partial",
   "theorems": [
    "Verif.FCorr.C146_returns_partial",
    "Verif.FCorr.C146_returns_violated",
    "Verif.FCorr.C146_blind_violated"
   ],
   "note": "False from 100000 observations on, for samples in which one of two values occurs once: two such samples raise, one gives zero (proved for all). Holds up to 24000 observations."
  },
  {
   "property": "C147",
   "status": "proved",
   "theorems": [
    "Verif.FCorr.C147_value",
    "Verif.FCorr.C147_value_large",
    "Verif.FCorr.C147_range"
   ],
   "note": "exact real arithmetic; the eigenvalue routines are exact (shown to exist)"
  },
  {
   "property": "C148",
   "status": "partial",
   "theorems": [
    "Verif.FCorr.C148_one_column_partial",
    "Verif.FCorr.C148_columns_violated",
    "Verif.FCorr.C148_camuv_violated"
   ],
   "note": "False: two or more columns always raise (proved for all shapes, from the rules of NumPy broadcasting). Holds for one column."
  },
  {
   "property": "C149",
   "status": "proved",
   "theorems": [
    "Verif.Parce.C149_order",
    "Verif.Parce.C149_rows",
    "Verif.Parce.C149_unresolved",
    "Verif.Parce.C149_same_unresolved",
    "Verif.Parce.C149_outside_resolved",
    "Verif.Parce.C149_no_hidden"
   ],
   "note": "population level: variables are coefficient vectors on independent non-Gaussian sources, tests answer correctly (shown to exist), not all statistics infinite (see C61)"
  },
  {
   "property": "C15",
   "status": "proved",
   "theorems": [
    "Verif.Paths.C15_threshold_monotone"
   ],
   "note": ""
  },
  {
   "property": "C150",
   "status": "partial",
   "theorems": [
    "Verif.Parce.C150_paths_partial",
    "Verif.Parce.C150_reversed_violated",
    "Verif.Parce.C150_lost_violated"
   ],
   "note": "False: with several candidates each is regressed on the other candidates only, not on all remaining variables. A true statement 'no path' can reverse an edge, a true statement 'path' can leave everything unresolved. With true paths only, the order stays right."
  },
  {
   "property": "C151",
   "status": "proved",
   "theorems": [
    "Verif.Parce.C151_regression",
    "Verif.Parce.C151_paths",
    "Verif.Parce.C151_unresolved_nan",
    "Verif.Parce.C151_no_shared_cause"
   ],
   "note": "population level as in C149, without prior knowledge; regressions are exact (shown to exist)"
  },
  {
   "property": "C152",
   "status": "partial",
   "theorems": [
    "Verif.Parce.C152_stored_partial",
    "Verif.Parce.C152_unresolved_violated"
   ],
   "note": "False for two unresolved variables: 0 is stored, estimate_total_effect2 returns NaN (proved for all fits). Holds for all other pairs."
  },
  {
   "property": "C153",
   "status": "proved",
   "theorems": [
    "Verif.Var.C153_recovered",
    "Verif.Var.C153_pruned",
    "Verif.Var.C153_direct"
   ],
   "note": "exact rational arithmetic; VAR estimation is least squares without intercept, LiNGAM model right on the errors, selection keeps the true causes (all shown to be satisfiable)"
  },
  {
   "property": "C154",
   "status": "partial",
   "theorems": [
    "Verif.Var.C154_given_partial",
    "Verif.Var.C154_pruned_partial",
    "Verif.Var.C154_origin_violated"
   ],
   "note": "False: the VAR part is estimated without intercept; for every one-variable series whose coefficient is not one, a shift by one unit up or down changes it. Holds with given ar_coefs."
  },
  {
   "property": "C155",
   "status": "partial",
   "theorems": [
    "Verif.Longitudinal.C155_recovered_partial",
    "Verif.Longitudinal.C155_one_lag_partial",
    "Verif.Longitudinal.C155_prior_partial",
    "Verif.Longitudinal.C155_direct",
    "Verif.Longitudinal.C155_lags_violated"
   ],
   "note": "False for two or more lags: the true matrices are reported with the lags in reverse, so an entry is wrong whenever lag k and lag n_lags+1-k differ (proved for all panels). Holds for one lag, the default."
  },
  {
   "property": "C156",
   "status": "proved",
   "theorems": [
    "Verif.MultiGroup.C156_recovered",
    "Verif.MultiGroup.C156_total_effects"
   ],
   "note": "exact rational arithmetic; the pairwise statistic and the regressions are right in every group (shown to be satisfiable with groups that have different edges)"
  },
  {
   "property": "C157",
   "status": "proved",
   "theorems": [
    "Verif.Resit.C157_order_any_model",
    "Verif.Resit.C157_order"
   ],
   "note": "any acyclic graph with a statistic that separates variables without effects; derived for linear models at population level (right tests shown to exist), no faithfulness needed"
  },
  {
   "property": "C158",
   "status": "partial",
   "theorems": [
    "Verif.Resit.C158_edges_partial",
    "Verif.Resit.C158_all_causes_violated",
    "Verif.Resit.C158_false_edge_violated",
    "Verif.Resit.C158_lost_edge_violated",
    "Verif.Resit.C158_collider_violated",
    "Verif.Resit.C158_all_edges_wrong"
   ],
   "note": "False: the residual is compared with the remaining predictors only, and the last predecessor is never tested. Proved for all models: a variable with two or more predecessors always loses one, a variable without causes gets a false edge unless it is first. The partial theorem says exactly for which variables the edges are right."
  },
  {
   "property": "C159",
   "status": "proved",
   "theorems": [
    "Verif.LongResult.C159_direction_counts",
    "Verif.LongResult.C159_signed_direction_counts",
    "Verif.LongResult.C159_probabilities",
    "Verif.LongResult.C159_counts_match_probabilities",
    "Verif.LongResult.C159_dag_counts",
    "Verif.LongResult.C159_missing_times",
    "Verif.LongResult.C159_invalid_params"
   ],
   "note": "which lag a position stands for is C41"
  },
  {
   "property": "C16",
   "status": "proved",
   "theorems": [
    "Verif.Boot.C16_invalid_params",
    "Verif.Boot.C16_direction_counts"
   ],
   "note": "np.argsort is an arbitrary tie-breaking sort"
  },
  {
   "property": "C160",
   "status": "partial",
   "theorems": [
    "Verif.LongResult.C160_total_effects_partial",
    "Verif.LongResult.C160_median_ignores_threshold"
   ],
   "note": "False with a threshold: the median is taken over all samples with a nonzero effect. Holds without a threshold."
  },
  {
   "property": "C161",
   "status": "proved",
   "theorems": [
    "Verif.LongResult.C161_paths",
    "Verif.LongResult.C161_refused"
   ],
   "note": ""
  },
  {
   "property": "C162",
   "status": "partial",
   "theorems": [
    "Verif.ErrorTests.C162_var",
    "Verif.ErrorTests.C162_var_given",
    "Verif.ErrorTests.C162_var_difference",
    "Verif.ErrorTests.C162_var_true_errors",
    "Verif.ErrorTests.C162_var_pruned_wrong",
    "Verif.ErrorTests.C162_varma_partial",
    "Verif.ErrorTests.C162_longitudinal",
    "Verif.ErrorTests.C162_longitudinal_early",
    "Verif.ErrorTests.C162_longitudinal_prior"
   ],
   "note": "False for VARLiNGAM with prune=True (the default): the residuals of the unpruned VAR are used with the pruned B0; the exact difference is proved. False for VARMALiNGAM when the MA matrices are wrong (C40). Holds for VARLiNGAM without pruning and for LongitudinalLiNGAM from time n_lags on (lags as in C41); earlier times test columns of NaN, and with prior knowledge the call raises. VARMALiNGAM with estimated coefficients or pruning is not covered."
  },
  {
   "property": "C163",
   "status": "proved",
   "theorems": [
    "Verif.ErrorTests.C163_group",
    "Verif.ErrorTests.C163_group_rcd",
    "Verif.ErrorTests.C163_more_data_sets"
   ],
   "note": "for the data sets that were fitted; further ones silently get zero tables (proved); the loop over the data sets; the matrices are those of the fit"
  },
  {
   "property": "C164",
   "status": "proved",
   "theorems": [
    "Verif.MultiGroup.C164_bootstrap_stores",
    "Verif.MultiGroup.C164_rejects",
    "Verif.MultiGroup.C164_direct"
   ],
   "note": "the resampled data sets enter through the joint fit, which is arbitrary"
  },
  {
   "property": "C165",
   "status": "partial",
   "theorems": [
    "Verif.MultiGroup.C165_effects_partial",
    "Verif.MultiGroup.C165_confounded_empty"
   ],
   "note": "False for a source with a latent confounder: the result is the empty list."
  },
  {
   "property": "C166",
   "status": "partial",
   "theorems": [
    "Verif.KernelMi.C166_no_log_of_zero",
    "Verif.KernelMi.C166_value_partial",
    "Verif.KernelMi.C166_positive",
    "Verif.KernelMi.C166_symmetric",
    "Verif.KernelMi.C166_invariant",
    "Verif.KernelMi.C166_constant_not_zero",
    "Verif.KernelMi.C166_parameters"
   ],
   "note": "False for constants: the kernel matrices are not centred, so the measure is positive for every pair of samples, also if one is constant. Everything else is proved over the reals."
  },
  {
   "property": "C167",
   "status": "partial",
   "theorems": [
    "Verif.Lina.C167_normal_equations",
    "Verif.Lina.C167_least_squares",
    "Verif.Lina.C167_lina",
    "Verif.Lina.C167_mdlina_partial",
    "Verif.Lina.C167_documented_scale",
    "Verif.Lina.C167_third_domain"
   ],
   "note": "Holds for LiNA and for MDLiNA with two domains and a scale with two rows (as in the tutorial). False for MDLiNA with the documented shape (IndexError) and for a third domain (its factors become zero)."
  },
  {
   "property": "C168",
   "status": "proved",
   "theorems": [
    "Verif.Lina.C168_relabelled",
    "Verif.Lina.C168_acyclic",
    "Verif.Lina.C168_domains"
   ],
   "note": "links of rows beyond the second domain are ignored, one domain raises IndexError (proved)"
  },
  {
   "property": "C169",
   "status": "partial",
   "theorems": [
    "Verif.Lina.C169_ends",
    "Verif.Lina.C169_rule",
    "Verif.Lina.C169_ends_by_rule",
    "Verif.Lina.C169_at_most_30_partial",
    "Verif.Lina.C169_chosen",
    "Verif.Lina.C169_rising",
    "Verif.Lina.C169_nan"
   ],
   "note": "False in general: an objective that rises by 0.1 per round, or is NaN, ends in an IndexError after 9999 rounds. At most 30 rounds if it never rises."
  },
  {
   "property": "C17",
   "status": "proved",
   "theorems": [
    "Verif.Boot.C17_signed_direction_counts",
    "Verif.Boot.C17_signs_sum"
   ],
   "note": ""
  },
  {
   "property": "C170",
   "status": "partial",
   "theorems": [
    "Verif.Lina.C170_solution_partial",
    "Verif.Lina.C170_no_pass",
    "Verif.Lina.C170_last_not_best"
   ],
   "note": "False: the solution of the last pass is used, also if it was rejected as worse. Proved: it is the thresholded solution of some pass."
  },
  {
   "property": "C171",
   "status": "partial",
   "theorems": [
    "Verif.Lina.C171_reconstruction_partial",
    "Verif.Lina.C171_not_gradient",
    "Verif.Lina.C171_scale_free"
   ],
   "note": "False: in the first round, for centred factors, the returned matrix is nowhere the gradient (it has a positive slope along H, along which the loss is constant). Proved for the term of the reconstruction error."
  },
  {
   "property": "C172",
   "status": "partial",
   "theorems": [
    "Verif.Lina.C172_no_penalty_partial",
    "Verif.Lina.C172_l1_partial",
    "Verif.Lina.C172_unbounded",
    "Verif.Lina.C172_never_stationary"
   ],
   "note": "False for every positive penalty: the two halves of the doubled variables are not bounded by zero, the objective is unbounded below and its gradient nowhere small. Holds without penalty or with nonnegative halves."
  },
  {
   "property": "C173",
   "status": "proved",
   "theorems": [
    "Verif.Lina.C173_only_laplace",
    "Verif.Lina.C173_l2_one_factor",
    "Verif.Lina.C173_laplace"
   ],
   "note": "the exception of the first evaluation of the objective; with one shared factor l2 returns a gradient of the wrong shape"
  },
  {
   "property": "C174",
   "status": "partial",
   "theorems": [
    "Verif.VisualEffect.C174_adjustment_partial",
    "Verif.VisualEffect.C174_linear_partial",
    "Verif.VisualEffect.C174_graph_ignored",
    "Verif.VisualEffect.C174_confounded"
   ],
   "note": "False for weighted matrices: parents are the entries equal to 1, so an estimated linear model is treated like the empty graph. Holds for 0/1 matrices (if the effect is not a parent of the cause)."
  },
  {
   "property": "C175",
   "status": "partial",
   "theorems": [
    "Verif.VisualEffect.C175_values",
    "Verif.VisualEffect.C175_first_only",
    "Verif.VisualEffect.C175_all_rows_partial",
    "Verif.VisualEffect.C175_positions_of_rows",
    "Verif.VisualEffect.C175_labels",
    "Verif.VisualEffect.C175_labels_raise"
   ],
   "note": "False without row numbers (only the first bootstrap sample) and for labels of rows other than 0, 1, ... (used as row numbers). Proved for bootstrap results with row numbers and for default labels."
  },
  {
   "property": "C176",
   "status": "partial",
   "theorems": [
    "Verif.VisualEffect.C176_tuple",
    "Verif.VisualEffect.C176_list",
    "Verif.VisualEffect.C176_matrix",
    "Verif.VisualEffect.C176_positions_partial",
    "Verif.VisualEffect.C176_lines"
   ],
   "note": "False: tuples, nested lists, matrices with NaN and repeated positions raise. Proved: exactly which arguments are accepted and which lines are drawn."
  },
  {
   "property": "C177",
   "status": "proved",
   "theorems": [
    "Verif.Rcd.C177_clean_variable_default"
   ],
   "note": "population level, rational coefficients; no total effect of a variable without hidden causes above it cancels; tests and regressions right by hypothesis (shown satisfiable)"
  },
  {
   "property": "C178",
   "status": "partial",
   "theorems": [
    "Verif.Rcd.C178_nan_means_hidden_partial",
    "Verif.Rcd.C178_clean_no_nan_partial",
    "Verif.Rcd.C178_rows_partial",
    "Verif.Rcd.C178_nan_iff_partial",
    "Verif.Rcd.C178_default_false_nan"
   ],
   "note": "Proved for max_explanatory_num = 1. False for the default 2: a variable without any hidden cause above it gets NaN (witness with exact tests)."
  },
  {
   "property": "C179",
   "status": "proved",
   "theorems": [
    "Verif.Rcd.C179_pruning_keeps_regression"
   ],
   "note": "population level, every max_explanatory_num"
  },
  {
   "property": "C18",
   "status": "proved",
   "theorems": [
    "Verif.Boot.C18_dag_counts"
   ],
   "note": ""
  },
  {
   "property": "C180",
   "status": "proved",
   "theorems": [
    "Verif.Rcd.C180_regression",
    "Verif.Rcd.C180_regression_one",
    "Verif.Rcd.C180_paths",
    "Verif.Rcd.C180_paths_one"
   ],
   "note": "population level, right tests and regressions by hypothesis"
  },
  {
   "property": "C181",
   "status": "partial",
   "theorems": [
    "Verif.Rcd.C181_no_cycle_partial",
    "Verif.Rcd.C181_default_cycle"
   ],
   "note": "Proved for max_explanatory_num = 1. False for the default 2: five variables, one hidden cause, exact tests, and 1, 2, 3 recorded as ancestors of each other in a circle."
  },
  {
   "property": "C182",
   "status": "proved",
   "theorems": [
    "Verif.Camuv.C182_parents_are_causes"
   ],
   "note": "population level, linear functions, right tests by hypothesis"
  },
  {
   "property": "C183",
   "status": "proved",
   "theorems": [
    "Verif.Camuv.C183_exact_without_hidden_causes",
    "Verif.Camuv.C183_recovers_graph",
    "Verif.Camuv.C183_cancellation_matters"
   ],
   "note": "population level, linear functions, right tests by hypothesis; the last theorem shows that the condition on cancellation is needed"
  },
  {
   "property": "C184",
   "status": "partial",
   "theorems": [
    "Verif.Camuv.C184_direct_without_hidden_causes_partial",
    "Verif.Camuv.C184_indirect_cause_reported"
   ],
   "note": "Proved for effects without hidden causes above them. False in general: 0 -> 1 -> 2 with a hidden cause of 1 and 2 gives a 1 from 0 to 2 and NaN for the true edge."
  },
  {
   "property": "C185",
   "status": "proved",
   "theorems": [
    "Verif.MultiGroup.C185_groups_recovered",
    "Verif.MultiGroup.C185_same_ancestors",
    "Verif.MultiGroup.C185_pooling_recovers_cancelled_effect"
   ],
   "note": "population level, right pooled tests by hypothesis (shown to be satisfiable by pooledTests_exist)"
  },
  {
   "property": "C186",
   "status": "partial",
   "theorems": [
    "Verif.MultiGroup.C186_fcorr_partial",
    "Verif.MultiGroup.C186_fcorr_loses_cause"
   ],
   "note": "Proved when the last data set is never the only one below the threshold. False in general: only the value of the last data set is compared, a true cause is lost and reported as NaN."
  },
  {
   "property": "C187",
   "status": "partial",
   "theorems": [
    "Verif.Mlhsicr.C187_objective_is_hsic",
    "Verif.Mlhsicr.C187_units_partial",
    "Verif.Mlhsicr.C187_sign_matters",
    "Verif.Mlhsicr.C187_fit_depends_on_sign"
   ],
   "note": "False for the sign: the kernel width of the residual is wy - sum c_j*w_j. For collinear data the objective is one positive constant in one orientation and reaches 0 in the other, with any exact optimiser. Proved: nonnegative sum of HSIC values; invariant under units and offsets that keep the relative signs."
  },
  {
   "property": "C188",
   "status": "partial",
   "theorems": [
    "Verif.Mlhsicr.C188_sum_of_statistics_partial",
    "Verif.Mlhsicr.C188_not_the_test"
   ],
   "note": "False for every n > 3 and every number of regressors. Proved when the width of the residual is the absolute value of wy - sum c_j*w_j."
  },
  {
   "property": "C189",
   "status": "partial",
   "theorems": [
    "Verif.Mlhsicr.C189_nan_partial",
    "Verif.Mlhsicr.C189_always_nan_somewhere"
   ],
   "note": "False: for all data there are coefficients with NaN. Proved: exactly when it is NaN."
  },
  {
   "property": "C19",
   "status": "proved",
   "theorems": [
    "Verif.Boot.C19_probabilities",
    "Verif.Boot.C19_monotone",
    "Verif.Boot.C19_blocks"
   ],
   "note": ""
  },
  {
   "property": "C190",
   "status": "partial",
   "theorems": [
    "Verif.Varma.C190_recovered_partial",
    "Verif.Varma.C190_omega_iff",
    "Verif.Varma.C190_wrong_omega"
   ],
   "note": "Proved for the instantaneous and lagged matrices and the order (without pruning). False for the moving average matrices: Omega_k is reported right if and only if Omega_k Psi_0 = 0."
  },
  {
   "property": "C191",
   "status": "partial",
   "theorems": [
    "Verif.Varma.C191_no_ma_partial",
    "Verif.Varma.C191_moving_average",
    "Verif.Varma.C191_never_exact"
   ],
   "note": "False with a moving average part: the random starting value is propagated by powers of -theta, never exactly corrected, and not even damped when |theta| >= 1. Proved without a moving average part."
  },
  {
   "property": "C192",
   "status": "proved",
   "theorems": [
    "Verif.Ica.C192_components"
   ],
   "note": "FastICA's result is an arbitrary matrix; uniqueness of the best matching is part of the statement"
  },
  {
   "property": "C193",
   "status": "partial",
   "theorems": [
    "Verif.Ica.C193_exact_partial",
    "Verif.Ica.C193_any_order"
   ],
   "note": "False: for every unmixing matrix without zeros and every order of the variables there are units in which this order is reported. Proved for the exact unmixing matrix of an acyclic model."
  },
  {
   "property": "C194",
   "status": "proved",
   "theorems": [
    "Verif.Ica.C194_stable",
    "Verif.Ica.C194_sharp"
   ],
   "note": "FastICA's result is an arbitrary matrix within the stated distance of a true unmixing matrix, components in any order and of any scale; the matching step must also be unambiguous, which is the second bound in the statement"
  },
  {
   "property": "C195",
   "status": "proved",
   "theorems": [
    "Verif.Camuv.C195_parents_are_causes",
    "Verif.Camuv.C195_exact_without_hidden_causes",
    "Verif.Camuv.C195_fcorr"
   ],
   "note": "population level, linear functions, right joint tests by hypothesis; for F-correlation this is reduced to the tests of the single data sets"
  },
  {
   "property": "C196",
   "status": "partial",
   "theorems": [
    "Verif.MultiGroup.C196_pair_search_sound_partial",
    "Verif.MultiGroup.C196_false_ancestor"
   ],
   "note": "Proved for max_explanatory_num = 1. False for the default 2: with a hidden common cause of 0 and 1 and 1 -> 2, variable 0 is recorded as an ancestor of 2."
  },
  {
   "property": "C197",
   "status": "proved",
   "theorems": [
    "Verif.Pairwise.C197_least_squares",
    "Verif.Pairwise.C197_no_effect",
    "Verif.Pairwise.C197_units",
    "Verif.Pairwise.C197_fit"
   ],
   "note": "exact arithmetic over the reals; scikit-learn's LinearRegression is any routine that returns least squares solutions, the Lasso path is arbitrary, LassoLarsIC follows its documentation; columns linearly independent for the uniqueness of coefficients"
  },
  {
   "property": "C198",
   "status": "proved",
   "theorems": [
    "Verif.Pairwise.C198_one_predictor",
    "Verif.Pairwise.C198_exact_target",
    "Verif.Pairwise.C198_keeps_some",
    "Verif.Pairwise.C198_two_variables"
   ],
   "note": "as C197; of the Lasso path it is used that it begins at 0, reaches a least squares solution and for one column has no other break; in floating point an exact linear function leaves a tiny error variance instead of 0"
  },
  {
   "property": "C199",
   "status": "proved",
   "theorems": [
    "Verif.Var.C199_fit",
    "Verif.Var.C199_default"
   ],
   "note": "exact arithmetic; C199_fit is for any VAR estimation, LiNGAM method and selection that convert on the data at hand, C199_default for the default parts over the reals (statsmodels is any routine that returns least squares solutions without intercept; the criteria are the logarithm of the determinant of the residual covariance plus a term in the sizes, or for fpe its exponential times such a term); an exception of DirectLiNGAM on the residuals is not modelled here (C197_fit covers it)"
  },
  {
   "property": "C20",
   "status": "partial",
   "theorems": [
    "Verif.Boot.C20_total_effects_listing",
    "Verif.Boot.C20_effect_is_median_partial",
    "Verif.Boot.C20_median_ignores_threshold"
   ],
   "note": "Listing, probabilities and order are proved in full. The effect is the median of the counted samples only when no threshold is given; with a threshold the code takes the median over all nonzero samples (negation proved)."
  },
  {
   "property": "C200",
   "status": "proved",
   "theorems": [
    "Verif.Boot.C200_direction_counts",
    "Verif.Boot.C200_dag_counts",
    "Verif.Boot.C200_probabilities",
    "Verif.Boot.C200_total_causal_effects",
    "Verif.Boot.C200_paths",
    "Verif.Boot.C200_bootstrap",
    "Verif.Boot.C200_limit_has_units",
    "Verif.Paths.C200_total_effect",
    "Verif.Var.C200_var_total_effect"
   ],
   "note": "exact arithmetic; factors positive for all indices, the cells outside of the matrix are irrelevant"
  },
  {
   "property": "C201",
   "status": "proved",
   "theorems": [
    "Verif.RcdData.C201_rcd_units"
   ],
   "note": "exact arithmetic; LinearRegression is any routine that returns least squares solutions; the p-value of shapiro is assumed not to depend on unit and origin; the tests that raise an exception for fewer than four rows are not modelled"
  },
  {
   "property": "C202",
   "status": "proved",
   "theorems": [
    "Verif.ParceData.C202_parce_units"
   ],
   "note": "exact arithmetic; the covariance regression with pinv is any routine that returns least squares solutions; values NaN (a residual that is constant over the first 100 rows) are not modelled"
  },
  {
   "property": "C203",
   "status": "proved",
   "theorems": [
    "Verif.LongData.C203_fit",
    "Verif.LongData.C203_documented",
    "Verif.LongData.C203_residuals",
    "Verif.LongData.C203_defined"
   ],
   "note": "exact arithmetic; LinearRegression is any routine that returns least squares coefficients, the Lasso path is arbitrary"
  },
  {
   "property": "C204",
   "status": "proved",
   "theorems": [
    "Verif.GroupData.C204_order",
    "Verif.GroupData.C204_rows",
    "Verif.GroupData.C204_sets",
    "Verif.GroupData.C204_sets_fit",
    "Verif.GroupData.C204_copies",
    "Verif.GroupData.C204_fit",
    "Verif.GroupData.C204_defined"
   ],
   "note": "exact arithmetic; LinearRegression is any routine that returns least squares coefficients, the Lasso path is arbitrary"
  },
  {
   "property": "C205",
   "status": "partial",
   "theorems": [
    "Verif.SimNames.C205_names",
    "Verif.SimNames.C205_names_lags",
    "Verif.SimNames.C205_train",
    "Verif.SimNames.C205_run_partial",
    "Verif.SimNames.C205_refuses",
    "Verif.SimNames.C205_none",
    "Verif.SimNames.C205_names_clash",
    "Verif.SimNames.C205_numbered_columns",
    "Verif.SimNames.C205_lists_fail",
    "Verif.SimNames.C205_untrained"
   ],
   "note": "proved for distinct names and values given as arrays. Violated: labels 1 and '1' become one name and the second column is never read (C205_names_clash); the time series handler refuses data frames with numbered columns (C205_numbered_columns); values given as a Python list pass the check and then no run returns (C205_lists_fail); run before train raises AttributeError (C205_untrained)"
  },
  {
   "property": "C206",
   "status": "partial",
   "theorems": [
    "Verif.ExtractAnc.C206_same_partial",
    "Verif.ExtractAnc.C206_fit",
    "Verif.ExtractAnc.C206_terminates",
    "Verif.ExtractAnc.C206_units",
    "Verif.ExtractAnc.C206_rows_refused"
   ],
   "note": "proved for arrays and data frames, with max_explanatory_num below one counting as one. Violated: a list of rows is refused, because X.shape is read before the conversion (C206_rows_refused)"
  },
  {
   "property": "C207",
   "status": "partial",
   "theorems": [
    "Verif.PrintBoot.C207_directions_partial",
    "Verif.PrintBoot.C207_signed",
    "Verif.PrintBoot.C207_dags",
    "Verif.PrintBoot.C207_readable",
    "Verif.PrintBoot.C207_readable_numbers",
    "Verif.PrintBoot.C207_array_labels",
    "Verif.PrintBoot.C207_array_of_one",
    "Verif.PrintBoot.C207_too_few_labels"
   ],
   "note": "proved without labels and for lists of labels. Violated: labels given as a numpy array or a pandas Index raise ValueError (C207_array_labels). The percentage is computed exactly and rounded with an error of at most half a tenth"
  },
  {
   "property": "C208",
   "status": "partial",
   "theorems": [
    "Verif.IntData.C208_rcd_partial",
    "Verif.IntData.C208_camuv_partial",
    "Verif.IntData.C208_groups_partial",
    "Verif.IntData.C208_rcd_small",
    "Verif.IntData.C208_rcd_wrong",
    "Verif.IntData.C208_camuv_wrong",
    "Verif.IntData.C208_groups_wrong"
   ],
   "note": "proved if no residual is changed by the conversion. Violated: residuals are written into arrays of the type of the data and cut off. If they are below one, RCD ignores every set of variables with common ancestors (C208_rcd_small); RCD and CAMUV report a hidden common cause in place of a direct cause (C208_rcd_wrong, C208_camuv_wrong); MultiGroupDirectLiNGAM returns another order (C208_groups_wrong)"
  },
  {
   "property": "C209",
   "status": "partial",
   "theorems": [
    "Verif.Effect.C209_unchanged_partial",
    "Verif.Effect.C209_failed_calls",
    "Verif.Effect.C209_array_forward_partial",
    "Verif.Effect.C209_later_fits_ignored",
    "Verif.Effect.C209_later_lists_ignored",
    "Verif.Effect.C209_array_order_kept",
    "Verif.Effect.C209_refit_violated",
    "Verif.Effect.C209_array_violated",
    "Verif.Effect.C209_cycle_unnoticed"
   ],
   "note": "proved while the model does not change, after calls that failed, and for arrays whose new arrows agree with the order of the first call. Violated: the results of a LiNGAM object are read once, so a later fit is ignored (C209_refit_violated); of an array changed in place the new coefficients are used in the old order, which gives effects of no model, and cycles are not noticed (C209_array_violated, C209_cycle_unnoticed)"
  },
  {
   "property": "C21",
   "status": "proved",
   "theorems": [
    "Verif.Boot.C21_get_paths",
    "Verif.Boot.C21_error_propagates"
   ],
   "note": ""
  },
  {
   "property": "C210",
   "status": "partial",
   "theorems": [
    "Verif.Cdg.C210_rows_partial",
    "Verif.Cdg.C210_repeated_rows",
    "Verif.Cdg.C210_repeated_violated",
    "Verif.Cdg.C210_series_by_label",
    "Verif.Cdg.C210_series_violated",
    "Verif.Cdg.C210_series_repeated"
   ],
   "note": "proved for different row labels and interventions that are arrays or carry the labels of the data. Violated: with repeated labels every row is returned as often as its label occurs (C210_repeated_violated); a Series with other labels is used by label, with NaN where the label is missing (C210_series_by_label, C210_series_violated), or refused if it has repeated labels"
  },
  {
   "property": "C211",
   "status": "partial",
   "theorems": [
    "Verif.Imputation.C211_completes_iff_partial",
    "Verif.Imputation.C211_result",
    "Verif.Imputation.C211_one_repeat_violated"
   ],
   "note": "the results have all stated properties; the call completes exactly if n_sampling >= 1, n_repeats >= 2, the (hard) prior knowledge has no contradictions and every resample has an observed value in every column. Violated: n_repeats = 1 passes the check and always fails later (C211_one_repeat_violated); resamples without an observed value in a column (C88)"
  },
  {
   "property": "C212",
   "status": "partial",
   "theorems": [
    "Verif.Resit.C212_order_partial",
    "Verif.Resit.C212_edges_partial",
    "Verif.Resit.C212_ties_violated",
    "Verif.Resit.C212_edges_violated"
   ],
   "note": "the causal order does not depend on the arrangement if no two statistics are equal, and the edges do not if the tests decide like a graph in which every variable but the first has a parent. Violated by equal statistics (C212_ties_violated) and, with tests that are right about a variable with two independent causes, by the edges: one of the two is removed, and which one depends on the arrangement (C212_edges_violated)"
  },
  {
   "property": "C213",
   "status": "partial",
   "theorems": [
    "Verif.Rcd.C213_clean_partial",
    "Verif.Rcd.C213_no_hidden_partial",
    "Verif.Rcd.C213_entries_partial",
    "Verif.Rcd.C213_default_violated",
    "Verif.Rcd.C213_one_error_violated"
   ],
   "note": "with right tests: the same result without hidden causes; with hidden causes the same ancestors, descendants and coefficients for variables without hidden causes above them, and with max_explanatory_num=1 the same entries (numbers and NaN) for variables whose proper ancestors have none. Violated: with right tests, one hidden cause and the default, ancestors_list_ depends on the arrangement (C213_default_violated); a single wrong answer that only one arrangement asks for changes the result (C213_one_error_violated)"
  },
  {
   "property": "C214",
   "status": "partial",
   "theorems": [
    "Verif.Camuv.C214_clean_partial",
    "Verif.Camuv.C214_no_hidden_partial",
    "Verif.Camuv.C214_hidden_violated"
   ],
   "note": "with right tests: the same matrix without hidden causes, and with hidden causes the same parents and entries for variables without hidden causes above them (nothing cancels by accident). Violated: with right tests and a hidden cause a true edge can be found in one arrangement and be NaN in another (C214_hidden_violated)"
  },
  {
   "property": "C215",
   "status": "partial",
   "theorems": [
    "Verif.GroupData.C215_order",
    "Verif.GroupData.C215_columns_partial",
    "Verif.GroupData.C215_single_partial",
    "Verif.GroupData.C215_soft_partial",
    "Verif.GroupData.C215_violated"
   ],
   "note": "order, matrices and errors for reordered columns: no prior knowledge or hard prior knowledge, data without linear dependences and with a unique joint order; soft prior knowledge for runs without ties. Violated when there are ties (C215_violated): the first column wins"
  },
  {
   "property": "C216",
   "status": "partial",
   "theorems": [
    "Verif.Refit.C216_direct",
    "Verif.Refit.C216_direct_partial",
    "Verif.Refit.C216_direct_violated",
    "Verif.Refit.C216_group",
    "Verif.Refit.C216_group_partial",
    "Verif.Refit.C216_group_violated",
    "Verif.Refit.C216_ica",
    "Verif.Refit.C216_ica_partial",
    "Verif.Refit.C216_ica_violated",
    "Verif.Refit.C216_parce",
    "Verif.Refit.C216_parce_partial",
    "Verif.Refit.C216_parce_violated",
    "Verif.Refit.C216_var",
    "Verif.Refit.C216_var_partial"
   ],
   "note": "proved: a successful fit does not depend on earlier results (Direct, MultiGroup, Parce, VAR); with more rows than columns an exception changes nothing (Direct, MultiGroup, ICA with two or more columns). Violated: with too few rows DirectLiNGAM keeps the new order beside the old matrix, MultiGroupDirectLiNGAM reports an order and too few matrices; ICALiNGAM and BottomUpParceLiNGAM drop the order and keep the old matrix"
  },
  {
   "property": "C217",
   "status": "partial",
   "theorems": [
    "Verif.Ica.C217_graph",
    "Verif.Ica.C217_same_graph",
    "Verif.Ica.C217_columns_partial",
    "Verif.Ica.C217_complete",
    "Verif.Ica.C217_violated"
   ],
   "note": "proved: the order is an order of the strongest acyclic graph, and this graph and the exceptions do not depend on the order of the columns; if the graph has only one order (for instance if it relates all variables), nothing depends on it. Violated: if the graph leaves the order of variables open the position of the columns decides, a witness with three variables reverses two of them"
  },
  {
   "property": "C218",
   "status": "partial",
   "theorems": [
    "Verif.SimNames.C218_flags",
    "Verif.SimNames.C218_series_flags",
    "Verif.SimNames.C218_numbers",
    "Verif.SimNames.C218_series_numbers_partial",
    "Verif.SimNames.C218_series_array",
    "Verif.SimNames.C218_array_violated",
    "Verif.SimNames.C218_number",
    "Verif.SimNames.C218_series_number_array",
    "Verif.SimNames.C218_number_array_violated"
   ],
   "note": "proved for lists and arrays without time and for lists of flags in time series. Violated for time series with a numpy array of flags: the marked names do not depend on which variables are flagged; flags written as 0 and 1 are read as column numbers, and in an array for a time series a column number is multiplied by the number of times, so that another variable or time is marked"
  },
  {
   "property": "C219",
   "status": "proved",
   "theorems": [
    "Verif.Pairwise.C219_order",
    "Verif.Pairwise.C219_list"
   ],
   "note": "the condition on the path routine is part of the claim; exists_alike shows that it can be met"
  },
  {
   "property": "C22",
   "status": "proved",
   "theorems": [
    "Verif.Boot.C22_bootstrap_stores",
    "Verif.Boot.C22_rejects_nonpositive",
    "Verif.Boot.C22_direct_lingam"
   ],
   "note": "resampling is arbitrary"
  },
  {
   "property": "C220",
   "status": "partial",
   "theorems": [
    "Verif.Var.C220_fit_partial",
    "Verif.Var.C220_default_partial",
    "Verif.Var.C220_violated"
   ],
   "note": "C220_fit_partial holds for every LiNGAM model and regression that follow the columns; C220_default_partial for DirectLiNGAM (hard prior knowledge), least squares and the adaptive Lasso if the order of the residuals has no ties. Violated with ties: the first column comes first"
  },
  {
   "property": "C221",
   "status": "partial",
   "theorems": [
    "Verif.Parce.C221_fit_partial",
    "Verif.ParceData.C221_data_partial",
    "Verif.ParceData.C221_violated"
   ],
   "note": "C221_fit_partial holds for any tests and regressions that follow the columns; C221_data_partial for the tests of the code on data, with least squares and the adaptive Lasso. Both assume that no two candidates tie. Violated with ties: the second column comes first in both orders"
  },
  {
   "property": "C222",
   "status": "partial",
   "theorems": [
    "Verif.Pairwise.C222_direct",
    "Verif.ParceData.C222_parce_partial",
    "Verif.RcdData.C222_rcd_partial",
    "Verif.RcdData.C222_violated"
   ],
   "note": "C222_direct holds for every permutation. BottomUpParceLiNGAM and RCD (HSIC, no MLHSICR): proved for permutations that keep the first 100 rows among themselves, so for all permutations of up to 100 rows. Violated by RCD with 101 rows, because the kernel width is taken from the first 100 rows only. The independence measure fcorr is not covered"
  },
  {
   "property": "C223",
   "status": "proved",
   "theorems": [
    "Verif.HighDim.C223_outcome",
    "Verif.HighDim.C223_least_squares",
    "Verif.HighDim.C223_no_effect",
    "Verif.HighDim.C223_units"
   ],
   "note": "C223_units assumes columns in general position and, for the cross-validated Lasso, that it uses fewer columns than rows."
  },
  {
   "property": "C224",
   "status": "partial",
   "theorems": [
    "Verif.HighDim.C224_order",
    "Verif.HighDim.C224_matrix_partial"
   ],
   "note": "The order: proved for all permutations. The matrix: proved for more rows than columns; otherwise the cross-validation divides the rows into consecutive blocks and the choice depends on the order of the rows, which is not modelled."
  },
  {
   "property": "C225",
   "status": "partial",
   "theorems": [
    "Verif.ErrorData.C225_units",
    "Verif.ErrorData.C225_direct_units",
    "Verif.ErrorData.C225_rows_partial",
    "Verif.ErrorData.C225_direct_rows_partial",
    "Verif.ErrorData.C225_rows_violated",
    "Verif.ErrorData.C225_columns",
    "Verif.ErrorData.C225_direct_columns_partial"
   ],
   "note": "Units and columns: proved (after fitting: where the causal order is determined by the data). Rows: proved for permutations that keep the first 100 rows among themselves; violated with 101 rows."
  },
  {
   "property": "C226",
   "status": "partial",
   "theorems": [
    "Verif.Effect.C226_effects_partial",
    "Verif.Effect.C226_optimal_partial",
    "Verif.Effect.C226_effects_units_violated",
    "Verif.Effect.C226_optimal_units_violated"
   ],
   "note": "Proved if no coefficient is strictly between 0 and 1e-10 in absolute value and (for the optimal intervention) no row of coefficients has sum 0, in both descriptions; violated otherwise, since both conditions depend on the units."
  },
  {
   "property": "C227",
   "status": "partial",
   "theorems": [
    "Verif.LongData.C227_fit_partial",
    "Verif.LongData.C227_violated"
   ],
   "note": "Proved if the regressions have one solution and each instantaneous order has no ties; with ties the first column wins, and the claim is violated."
  },
  {
   "property": "C228",
   "status": "partial",
   "theorems": [
    "Verif.Varma.C228_fit_partial",
    "Verif.Varma.C228_default_partial",
    "Verif.Varma.C228_noise_violated"
   ],
   "note": "Proved if the VARMA estimation of statsmodels follows the description, the residuals have no ties and the columns of the regressions are independent. With given moving average coefficients the start-up noise has the same distribution in every unit, so the residuals depend on the unit (violated)."
  },
  {
   "property": "C229",
   "status": "partial",
   "theorems": [
    "Verif.Pairwise.C229_coins_partial",
    "Verif.Pairwise.C229_violated"
   ],
   "note": "Proved for two fair coins (two values, equally often), any effect and any values. False in general: with 25 rows, values -8, -1, 0, 1, 8 for cause and error and effect 3/4 the effect is put first, although the error is exactly independent of the cause and no model in the other direction has an independent error; the entropy approximation with one fixed function cannot see this non-Gaussianity."
  },
  {
   "property": "C23",
   "status": "proved",
   "theorems": [
    "Verif.Ica.C23_order_sound",
    "Verif.Ica.C23_succeeds_iff_acyclic"
   ],
   "note": ""
  },
  {
   "property": "C230",
   "status": "partial",
   "theorems": [
    "Verif.Lim.C230_progress",
    "Verif.Lim.C230_kept_partial",
    "Verif.Lim.C230_exact_discarded",
    "Verif.Lim.C230_violated"
   ],
   "note": "Holds if the violation is above zero. An answer that is exactly acyclic (violation 0) is excluded by the test h != 0: the penalty is raised to its limit and the last answer is used, which may have a cycle (violated with the default settings, with and without local search)."
  },
  {
   "property": "C231",
   "status": "proved",
   "theorems": [
    "Verif.Hsic.C231_zero_iff",
    "Verif.Hsic.C231_accepted",
    "Verif.Hsic.C231_dependent",
    "Verif.Hsic.C231_reported"
   ],
   "note": "The p-value statements hold where a p-value is reported (C116, C117) and assume that the survival function of the gamma distribution is 1 at 0 and below 1 at positive numbers. An example with eight rows meets the hypotheses."
  },
  {
   "property": "C232",
   "status": "proved",
   "theorems": [
    "Verif.ResitData.C232_linear",
    "Verif.ResitData.C232_nonlinear",
    "Verif.ResitData.C232_order"
   ],
   "note": "Variables, errors and residuals have to vary over the first 100 rows, otherwise the code computes NaN. At least four rows. The regressor is deterministic. The sum of two coins meets the hypotheses, with both kinds of regressor; that a least squares regression exists is proved too."
  },
  {
   "property": "C233",
   "status": "proved",
   "theorems": [
    "Verif.ParceData.C233_order"
   ],
   "note": "The HSIC tests have to give numbers (see C231). Assumed of the library: gamma.sf is 1 at 0 and in [0, 1) at positive numbers, chi2.cdf is 0 at 0, pinv gives a least squares solution. The sum of two coins meets the hypotheses; a library with these properties is shown to exist."
  },
  {
   "property": "C234",
   "status": "proved",
   "theorems": [
    "Verif.Parce.C234_parce_nested",
    "Verif.Parce.C234_parce_zero",
    "Verif.Parce.C234_parce_fcorr_zero",
    "Verif.Resit.C234_resit_order",
    "Verif.Resit.C234_resit_all",
    "Verif.Resit.C234_resit_not_monotone",
    "Verif.RcdData.C234_rcd_correlation",
    "Verif.RcdData.C234_rcd_nothing",
    "Verif.RcdData.C234_rcd_fcorr_zero",
    "Verif.GroupRcd.C234_group_correlation",
    "Verif.GroupRcd.C234_group_nothing",
    "Verif.Camuv.C234_camuv_strict",
    "Verif.Camuv.C234_camuv_loose"
   ],
   "note": "p-values are assumed to be nonnegative or at most 1 where the claim needs it. The claim about equal coefficients takes a regression that does not depend on the order of its predictors. BottomUpParceLiNGAM is compared for two runs that both end without an error (always, without prior knowledge: C32)."
  },
  {
   "property": "C235",
   "status": "partial",
   "theorems": [
    "Verif.GroupRcd.C235_units",
    "Verif.GroupRcd.C235_order_of_data_sets",
    "Verif.GroupRcd.C235_rows_partial"
   ],
   "note": "The order of the rows: only if the first 100 rows of every data set remain the same (the kernel width is estimated from them) and without MLHSICR. Assumes that LinearRegression returns a least squares fit and that the p-value of shapiro depends neither on the unit nor on the origin nor on the order of the rows. With the F-correlation the order of the data sets matters: C48."
  },
  {
   "property": "C236",
   "status": "proved",
   "theorems": [
    "Verif.GroupRcd.C236_constant",
    "Verif.GroupRcd.C236_ancestors"
   ],
   "note": "Assumes that LinearRegression returns a least squares fit. Exact arithmetic: with floating point numbers the residual of a constant variable is exactly constant only if nothing is regressed out or its coefficients are exactly zero."
  },
  {
   "property": "C237",
   "status": "proved",
   "theorems": [
    "Verif.Inputs.C237_rcd",
    "Verif.Inputs.C237_camuv",
    "Verif.Inputs.C237_resit",
    "Verif.Inputs.C237_parce",
    "Verif.Inputs.C237_lists",
    "Verif.Inputs.C237_rejected",
    "Verif.Inputs.C237_rejected_columns"
   ],
   "note": "check_array is an oracle; arguments that cannot be compared with 0 are not modelled. C237_rejected takes a search that does not raise. The number of columns that the object remembers is that of the rejected data (C237_rejected_columns); no method reads it before setting it again."
  },
  {
   "property": "C238",
   "status": "partial",
   "theorems": [
    "Verif.Inputs.C238_rounded_partial",
    "Verif.Inputs.C238_large",
    "Verif.Inputs.C238_infinite"
   ],
   "note": "Proved for all limits that are numbers or NaN (with C25, which shows that every positive integer gives an answer); for infinity the negation is proved: fit never ends."
  },
  {
   "property": "C239",
   "status": "proved",
   "theorems": [
    "Verif.RcdData.C239_pair"
   ],
   "note": "Assumes that LinearRegression returns a least squares fit, that gamma.sf is 1 at zero and that HSIC gives a p-value (not NaN) for the centred error and the cause. Exact arithmetic."
  },
  {
   "property": "C24",
   "status": "proved",
   "theorems": [
    "Verif.Ica.C24_finds_order",
    "Verif.Ica.C24_one_variable",
    "Verif.Ica.C24_fit",
    "Verif.Ica.C24_infeasible_iff"
   ],
   "note": "FastICA's output is arbitrary; no NaN"
  },
  {
   "property": "C240",
   "status": "proved",
   "theorems": [
    "Verif.KernelSearch.C240_invariant",
    "Verif.KernelSearch.C240_order",
    "Verif.KernelSearch.C240_no_exception",
    "Verif.KernelSearch.C240_constant"
   ],
   "note": "Exact arithmetic. That svd of a matrix with NaN raises LinAlgError is part of the model."
  },
  {
   "property": "C241",
   "status": "proved",
   "theorems": [
    "Verif.VarResult.C241_directions",
    "Verif.VarResult.C241_probabilities",
    "Verif.VarResult.C241_paths",
    "Verif.VarResult.C241_refused",
    "Verif.VarResult.C241_errors_ignored"
   ],
   "note": "Samples without NaN and with the same number of lags."
  },
  {
   "property": "C242",
   "status": "proved",
   "theorems": [
    "Verif.CamuvData.C242_pair",
    "Verif.CamuvData.C242_tie"
   ],
   "note": "HSIC without prior knowledge; exact independence in the sample."
  },
  {
   "property": "C243",
   "status": "proved",
   "theorems": [
    "Verif.CamuvData.C243_units",
    "Verif.CamuvData.C243_common",
    "Verif.CamuvData.C243_rows"
   ],
   "note": "HSIC; the predictions of the additive model are assumed to follow units, origins and rows."
  },
  {
   "property": "C244",
   "status": "proved",
   "theorems": [
    "Verif.ResitData.C244_common",
    "Verif.ResitData.C244_two",
    "Verif.ResitData.C244_rows",
    "Verif.ResitData.C244_violated"
   ],
   "note": "The predictions of the regressor are assumed to follow units, origins and rows."
  },
  {
   "property": "C245",
   "status": "proved",
   "theorems": [
    "Verif.Direct.C245_uncorrelated",
    "Verif.Direct.C245_complete",
    "Verif.Direct.C245_missing"
   ],
   "note": "Exact arithmetic; regressions are any least squares coefficients (which exist: exists_ols)."
  },
  {
   "property": "C246",
   "status": "proved",
   "theorems": [
    "Verif.MultiGroup.C246_agree",
    "Verif.MultiGroup.C246_length"
   ],
   "note": "Exact arithmetic; regressions are any least squares coefficients."
  },
  {
   "property": "C247",
   "status": "proved",
   "theorems": [
    "Verif.GroupRcd.C247_valid",
    "Verif.GroupRcd.C247_uniform",
    "Verif.GroupRcd.C247_independence",
    "Verif.GroupRcd.C247_normality",
    "Verif.GroupRcd.C247_nothing",
    "Verif.GroupRcd.C247_single",
    "Verif.GroupRcd.C247_copies"
   ],
   "note": "chi2.sf is assumed to be the survival function of the chi-squared distribution (defined by the gamma distribution of Mathlib); the p-values must not be NaN. An example with random data sets of four rows meets the hypotheses."
  },
  {
   "property": "C248",
   "status": "proved",
   "theorems": [
    "Verif.GroupRcd.C248_pair"
   ],
   "note": "chi2.sf is assumed to be the survival function of the chi-squared distribution, gamma.sf to be 1 at 0, LinearRegression to return a least squares fit; HSIC must report a p-value for error and cause, and the correlation must not be NaN. An example with two data sets and the coefficients 1 and 2 meets the hypotheses."
  },
  {
   "property": "C249",
   "status": "proved",
   "theorems": [
    "Verif.GroupCamuv.C249_units",
    "Verif.GroupCamuv.C249_common",
    "Verif.GroupCamuv.C249_rows",
    "Verif.GroupCamuv.C249_order_of_data_sets",
    "Verif.GroupCamuv.C249_prior"
   ],
   "note": "LinearGAM is an arbitrary function whose predictions follow units, origins and rows (regression by group means is an example). The exception of HSIC for fewer than four rows is not modelled."
  },
  {
   "property": "C25",
   "status": "proved",
   "theorems": [
    "Verif.Rcd.C25_ancestors_terminate",
    "Verif.Rcd.C25_ancestors_justified"
   ],
   "note": "for every outcome of the tests, max_explanatory_num >= 1 as enforced by __init__"
  },
  {
   "property": "C250",
   "status": "proved",
   "theorems": [
    "Verif.GroupCamuv.C250_pair"
   ],
   "note": "chi2.sf is assumed to be the survival function of the chi-squared distribution, gamma.sf to be nonnegative, 1 at 0 and below 1 for positive arguments. An example with two data sets meets the hypotheses."
  },
  {
   "property": "C251",
   "status": "proved",
   "theorems": [
    "Verif.GroupCamuv.C251_groups",
    "Verif.GroupCamuv.C251_single"
   ],
   "note": "chi2.sf is assumed to be the survival function of the chi-squared distribution. Validity of the p-values of HSIC is a hypothesis (the gamma approximation is not exact). An example with two random data sets meets the hypotheses."
  },
  {
   "property": "C252",
   "status": "proved",
   "theorems": [
    "Verif.SimNames.C252_names",
    "Verif.SimNames.C252_data",
    "Verif.SimNames.C252_matrix",
    "Verif.SimNames.C252_matrix_nan",
    "Verif.SimNames.C252_series",
    "Verif.SimNames.C252_state"
   ],
   "note": "check_array of scikit-learn is part of the model (dimensions, size, finiteness). Stated for calls without is_discrete and models; which of these are accepted is C205 and C218. For VARLiNGAM the labels must be strings (numbers as labels raise TypeError, C205). Exceptions of the regressions are not modelled."
  },
  {
   "property": "C253",
   "status": "partial",
   "theorems": [
    "Verif.Cdg.C253_kinds",
    "Verif.Cdg.C253_separate_partial",
    "Verif.Cdg.C253_shared",
    "Verif.Cdg.C253_reused",
    "Verif.Cdg.C253_other_columns",
    "Verif.Cdg.C253_missing_columns",
    "Verif.Cdg.C253_drawing_partial"
   ],
   "note": "Acceptance by fit is proved as stated. Own models for every generator hold only if the objects passed differ and are not trained again (C253_separate_partial); the code does not clone: one object for both equations makes every generate that computes the cause raise ValueError (C253_shared), and training the object again changes the generator (C253_reused). visualize_nonlinear_causal_effect checks predict_proba only for classifiers (C253_drawing_partial). Assumed of scikit-learn: predict raises ValueError for another number of columns than in training."
  },
  {
   "property": "C254",
   "status": "proved",
   "theorems": [
    "Verif.Pairwise.C254_order",
    "Verif.Pairwise.C254_resampled"
   ],
   "note": "Exact real arithmetic, no prior knowledge, default measure. That the order of the distribution is the causal one is not claimed (the entropies are approximations). An example in which an effect adds one coin to another meets the hypotheses."
  },
  {
   "property": "C255",
   "status": "proved",
   "theorems": [
    "Verif.Pairwise.C255_keeps"
   ],
   "note": "LinearRegression and the Lasso path are oracles as for C197 and C198; LassoLarsIC chooses by BIC as documented."
  },
  {
   "property": "C256",
   "status": "proved",
   "theorems": [
    "Verif.Pairwise.C256_given_order",
    "Verif.Pairwise.C256_fit",
    "Verif.Pairwise.C256_model",
    "Verif.Pairwise.C256_recovers"
   ],
   "note": "Convergence of the entries; that entries without effect become exactly 0 is not claimed. LinearRegression and the Lasso path are arbitrary oracles that may differ from sample size to sample size. The coins of C254 meet the hypotheses."
  },
  {
   "property": "C257",
   "status": "proved",
   "theorems": [
    "Verif.Pairwise.C257_wrong_direction",
    "Verif.Pairwise.C257_data"
   ],
   "note": "Exact real arithmetic; the constants 79.047, 7.4129 and 0.37457 are those of the code. The approximate entropies of the cause and the disturbance are almost those of a Gaussian variable, those of the effect and of the reverse residual are not."
  },
  {
   "property": "C258",
   "status": "proved",
   "theorems": [
    "Verif.Pairwise.C258_any_order",
    "Verif.Pairwise.C258_prior_knowledge"
   ],
   "note": "Exact arithmetic; that the orders are causal orders is a hypothesis, it holds for DirectLiNGAM as in C254 and can fail as in C257."
  },
  {
   "property": "C259",
   "status": "proved",
   "theorems": [
    "Verif.Pairwise.C259_regression",
    "Verif.Pairwise.C259_fit"
   ],
   "note": "Exact arithmetic; oracles as for C256. The total effect is defined by its equations, independently of the paths."
  },
  {
   "property": "C26",
   "status": "proved",
   "theorems": [
    "Verif.Rcd.C26_matrix_structure",
    "Verif.Rcd.C26_nan_iff",
    "Verif.Rcd.C26_same_pattern"
   ],
   "note": ""
  },
  {
   "property": "C260",
   "status": "proved",
   "theorems": [
    "Verif.Pairwise.C260_drops",
    "Verif.Pairwise.C260_row",
    "Verif.Pairwise.C260_unrelated"
   ],
   "note": "Exact arithmetic; oracles as for C198. The probability is that of the event that some choice of right solvers gives another result."
  },
  {
   "property": "C261",
   "status": "proved",
   "theorems": [
    "Verif.Pairwise.C261_exact",
    "Verif.Pairwise.C261_row",
    "Verif.Pairwise.C261_support",
    "Verif.Pairwise.C261_fit"
   ],
   "note": "Exact arithmetic. LassoLarsIC follows a Lasso path: the penalties decrease to 0, every vector minimises the Lasso objective and so do the points between two of them; such a path exists for all data (exists_lasso). That the order is a causal one is a hypothesis (C254, C257)."
  },
  {
   "property": "C262",
   "status": "proved",
   "theorems": [
    "Verif.Pairwise.C262_order",
    "Verif.Pairwise.C262_graph"
   ],
   "note": "Exact arithmetic; oracles as for C261. That the order of the distribution is causal is a hypothesis (it is the order of the linear model); C257 shows a model for which it is not. The coins of C254 meet the hypotheses."
  },
  {
   "property": "C263",
   "status": "proved",
   "theorems": [
    "Verif.Pairwise.C263_order",
    "Verif.Pairwise.C263_matrix",
    "Verif.Pairwise.C263_effects",
    "Verif.Pairwise.C263_graph"
   ],
   "note": "Exact arithmetic; measure 'pwling'; oracles as for C261. Nothing is assumed about the comparison of the variables, in contrast to C262 and C257."
  },
  {
   "property": "C264",
   "status": "proved",
   "theorems": [
    "Verif.Pairwise.C264_half",
    "Verif.Pairwise.C264_rows",
    "Verif.Pairwise.C264_gaussian",
    "Verif.Pairwise.C264_population"
   ],
   "note": "Exact arithmetic; measure 'pwling'. The bound is for the order [1, 0]; ties are resolved in favour of the first column."
  },
  {
   "property": "C27",
   "status": "partial",
   "theorems": [
    "Verif.Rcd.C27_no_short_cycles_partial",
    "Verif.Rcd.C27_acyclic_if_transitive_partial",
    "Verif.Rcd.C27_cycle_possible"
   ],
   "note": "The claim is false for inconsistent test outcomes: a three-variable cycle is exhibited. Proved: no cycles of length one or two, and acyclicity when the recorded ancestors are transitively closed."
  },
  {
   "property": "C28",
   "status": "proved",
   "theorems": [
    "Verif.Camuv.C28_parents_terminate",
    "Verif.Camuv.C28_parents_justified"
   ],
   "note": "for every value of the independence measure and every iteration order of sets"
  },
  {
   "property": "C29",
   "status": "proved",
   "theorems": [
    "Verif.Camuv.C29_matrix"
   ],
   "note": ""
  },
  {
   "property": "C30",
   "status": "partial",
   "theorems": [
    "Verif.Camuv.C30_acyclic_partial",
    "Verif.Camuv.C30_cycle_possible"
   ],
   "note": "False in general: a three-variable cycle is exhibited. Proved: no cycles of length one or two; acyclic if prior knowledge leaves an acyclic relation."
  },
  {
   "property": "C31",
   "status": "proved",
   "theorems": [
    "Verif.Resit.C31_order_and_matrix",
    "Verif.Resit.C31_keeps_a_parent",
    "Verif.Resit.C31_least_dependent_last",
    "Verif.Resit.C31_edges_tested"
   ],
   "note": "regressor and HSIC arbitrary; the statement about least dependent variables assumes no NaN"
  },
  {
   "property": "C32",
   "status": "proved",
   "theorems": [
    "Verif.Parce.C32_terminates",
    "Verif.Parce.C32_no_error",
    "Verif.Parce.C32_one_variable",
    "Verif.Parce.C32_order",
    "Verif.Parce.C32_matrix",
    "Verif.Parce.C32_rows",
    "Verif.Parce.C32_prior_respected"
   ],
   "note": "tests and regressions arbitrary"
  },
  {
   "property": "C33",
   "status": "partial",
   "theorems": [
    "Verif.Effect.C33_accepted_sound_partial",
    "Verif.Effect.C33_acyclic_accepted",
    "Verif.Effect.C33_exact_partial",
    "Verif.Effect.C33_tiny_cycle_accepted",
    "Verif.Effect.C33_order_can_contradict"
   ],
   "note": "Acyclic matrices are always accepted; exact if nonzero coefficients are at least 1e-10. False below the tolerance: a tiny cycle is accepted and an order contradicting a tiny edge is used (both proved)."
  },
  {
   "property": "C34",
   "status": "proved",
   "theorems": [
    "Verif.Effect.C34_solves_uniquely",
    "Verif.Effect.C34_mean_unchanged",
    "Verif.Effect.C34_change_is_total_effect",
    "Verif.Effect.C34_linear_effects"
   ],
   "note": "exact arithmetic, order consistent with the matrix"
  },
  {
   "property": "C35",
   "status": "partial",
   "theorems": [
    "Verif.Effect.C35_reaches_desired_partial",
    "Verif.Effect.C35_choices_irrelevant_partial",
    "Verif.Effect.C35_progress",
    "Verif.Effect.C35_cancelling_row"
   ],
   "note": "Proved when no row of coefficients sums to zero; with a cancelling row the claim is false (negation proved)."
  },
  {
   "property": "C36",
   "status": "proved",
   "theorems": [
    "Verif.Var.C36_structural_equations",
    "Verif.Var.C36_residuals",
    "Verif.Var.C36_innovations_determined"
   ],
   "note": "without pruning (pruning replaces the matrices by regression coefficients, see C65)"
  },
  {
   "property": "C37",
   "status": "partial",
   "theorems": [
    "Verif.Var.C37_second_fit_reuses",
    "Verif.Var.C37_specified_partial",
    "Verif.Var.C37_history_dependent",
    "Verif.Varma.C37_varma_second_fit_reuses",
    "Verif.Varma.C37_varma_specified_partial"
   ],
   "note": "The claim is false: a second fit keeps the coefficients of the first one (proved for all inputs). It holds when coefficients are specified."
  },
  {
   "property": "C38",
   "status": "partial",
   "theorems": [
    "Verif.Var.C38_path_sum_partial",
    "Verif.Var.C38_is_var_coefficient",
    "Verif.Var.C38_misses_lagged_paths"
   ],
   "note": "Holds when the source at lag L influences no variable before time t (always for lag 0). Otherwise false: an unpruned model reports the plain VAR coefficient (proved), and a witness is given."
  },
  {
   "property": "C39",
   "status": "partial",
   "theorems": [
    "Verif.Varma.C39_small_lags_partial",
    "Verif.Varma.C39_always_lag_one",
    "Verif.Varma.C39_lag_two_wrong"
   ],
   "note": "False for lags above 1: the lag-1 effect is reported (proved for every unpruned model)."
  },
  {
   "property": "C40",
   "status": "partial",
   "theorems": [
    "Verif.Varma.C40_correct_iff_partial",
    "Verif.Varma.C40_right_transformation",
    "Verif.Varma.C40_wrong_omega"
   ],
   "note": "The inverse factor is dropped; the reported matrix is right exactly when theta psi_0 = 0 (proved), otherwise false (witness)."
  },
  {
   "property": "C41",
   "status": "partial",
   "theorems": [
    "Verif.Longitudinal.C41_one_lag_partial",
    "Verif.Longitudinal.C41_reversed",
    "Verif.Longitudinal.C41_prior_reversed",
    "Verif.Longitudinal.C41_two_lags_wrong"
   ],
   "note": "Right for n_lags = 1. For more lags the order of the lags is reversed (proved for all inputs, both branches), witness given."
  },
  {
   "property": "C42",
   "status": "proved",
   "theorems": [
    "Verif.Lim.C42_nonneg",
    "Verif.Lim.C42_zero_iff_acyclic",
    "Verif.Lim.C42_trace",
    "Verif.Lim.C42_monotone"
   ],
   "note": "any ordered field, d >= 1; exact arithmetic"
  },
  {
   "property": "C43",
   "status": "partial",
   "theorems": [
    "Verif.Lim.C43_acyclic_partial",
    "Verif.Lim.C43_changed_acyclic_partial",
    "Verif.Lim.C43_lina_partial",
    "Verif.Lim.C43_default_cycle",
    "Verif.Lim.C43_no_convergence"
   ],
   "note": "Proved when h_tol < (w_threshold^2/d)^d and the optimisation meets the tolerance (defaults: up to 3 variables). False otherwise: a 4-cycle passes with the default settings."
  },
  {
   "property": "C44",
   "status": "partial",
   "theorems": [
    "Verif.Simulator.C44_reproduces_partial",
    "Verif.Simulator.C44_reproduces_numeric",
    "Verif.Simulator.C44_discrete_parent"
   ],
   "note": "Proved for every variable without a discrete ancestor-or-self that has parents. False below such a variable (witness)."
  },
  {
   "property": "C45",
   "status": "proved",
   "theorems": [
    "Verif.Simulator.C45_accepts_iff",
    "Verif.Simulator.C45_train_iff",
    "Verif.Simulator.C45_local",
    "Verif.Simulator.C45_non_descendants",
    "Verif.Simulator.C45_structural",
    "Verif.Simulator.C45_tiny_coefficient_refused",
    "Verif.Simulator.C45_equations",
    "Verif.Simulator.C45_unique",
    "Verif.Simulator.C45_unknown_coefficients"
   ],
   "note": "changed models name known variables (checked by the code); tiny coefficients count for the order only"
  },
  {
   "property": "C46",
   "status": "partial",
   "theorems": [
    "Verif.Cdg.C46_reproduces_partial",
    "Verif.Cdg.C46_no_adjustments_fails",
    "Verif.Cdg.C46_extra_column_fails"
   ],
   "note": "Proved with at least one adjustment variable and no further columns; otherwise generate() raises for all inputs (proved)."
  },
  {
   "property": "C47",
   "status": "proved",
   "theorems": [
    "Verif.Oct.C47_blanket",
    "Verif.Oct.C47_symmetric",
    "Verif.Oct.C47_not_self",
    "Verif.Oct.C47_selected",
    "Verif.Oct.C47_smaller_than_all"
   ],
   "note": "regression and random permutations are oracles"
  },
  {
   "property": "C48",
   "status": "partial",
   "theorems": [
    "Verif.MultiGroup.C48_direct",
    "Verif.MultiGroup.C48_rcd_partial",
    "Verif.MultiGroup.C48_camuv",
    "Verif.MultiGroup.C48_rcd_fcorr_depends_on_order",
    "Verif.MultiGroup.C48_rcd_fcorr_last"
   ],
   "note": "Proved for DirectLiNGAM, CAM-UV and RCD with HSIC, exact arithmetic. False for RCD with fcorr: only the last data set counts."
  },
  {
   "property": "C49",
   "status": "proved",
   "theorems": [
    "Verif.Utils.C49_pvalues",
    "Verif.Utils.C49_pvalues_nan"
   ],
   "note": "HSIC arbitrary"
  },
  {
   "property": "C50",
   "status": "proved",
   "theorems": [
    "Verif.Utils.C50_sinks",
    "Verif.Utils.C50_exo",
    "Verif.Utils.C50_exist"
   ],
   "note": ""
  },
  {
   "property": "C51",
   "status": "partial",
   "theorems": [
    "Verif.Utils.C51_distance_partial",
    "Verif.Utils.C51_groups",
    "Verif.Utils.C51_cancelling_row"
   ],
   "note": "Proved when no row of coefficients sums to nearly zero; with a cancelling row a non-root is listed as root (negation proved). networkx's shortest paths are modelled by layers."
  },
  {
   "property": "C52",
   "status": "proved",
   "theorems": [
    "Verif.Imputation.C52_records",
    "Verif.Imputation.C52_accepts_iff",
    "Verif.Imputation.C52_repetitions_unchecked"
   ],
   "note": "the number of adjacency matrices is not checked by the code (witness)"
  },
  {
   "property": "C53",
   "status": "partial",
   "theorems": [
    "Verif.Direct.C53_fast_ignores_prior",
    "Verif.Direct.C53_fast_total_partial"
   ],
   "note": "The code violates the claim: pwling_fast never restricts the candidates (negation proved)."
  },
  {
   "property": "C54",
   "status": "partial",
   "theorems": [
    "Verif.Direct.C54_no_path_respected_partial",
    "Verif.Direct.C54_mutual_no_path_violated"
   ],
   "note": "Holds for one-sided knowledge; violated when both directions are excluded (indirect path possible, negation proved)."
  },
  {
   "property": "C55",
   "status": "proved",
   "theorems": [
    "Verif.Direct.C55_rows_are_regressions"
   ],
   "note": ""
  },
  {
   "property": "C56",
   "status": "proved",
   "theorems": [
    "Verif.Direct.C56_each_step_takes_best"
   ],
   "note": "no NaN scores; hard or no prior knowledge"
  },
  {
   "property": "C57",
   "status": "partial",
   "theorems": [
    "Verif.Direct.C57_requested_path_may_be_missing"
   ],
   "note": "The code does not guarantee it: negation proved with a witness; only the order is enforced (C04)."
  },
  {
   "property": "C58",
   "status": "proved",
   "theorems": [
    "Verif.Ica.C58_exact_recovery"
   ],
   "note": "exact arithmetic"
  },
  {
   "property": "C59",
   "status": "partial",
   "theorems": [
    "Verif.Rcd.C59_bootstrap_totals_partial",
    "Verif.Rcd.C59_indirect_effect_lost"
   ],
   "note": "Holds for recorded ancestors; for a pair joined by a path but not recorded as ancestor the stored effect is 0 (negation proved)."
  },
  {
   "property": "C60",
   "status": "partial",
   "theorems": [
    "Verif.Camuv.C60_one_equals_two_partial",
    "Verif.Camuv.C60_two_explanatory_variables_not_tried"
   ],
   "note": "False: only sets of k variables including the child are tried, so k=1 and k=2 give the same result and two joint parents are missed with k=2."
  },
  {
   "property": "C61",
   "status": "partial",
   "theorems": [
    "Verif.Parce.C61_accepted_passed_partial",
    "Verif.Parce.C61_all_infinite_accepted"
   ],
   "note": "Proved when among any two or more candidates one statistic is finite (and always for fcorr). False when all p-values are 0: all variables are then accepted at once (negation proved for every n >= 2)."
  },
  {
   "property": "C62",
   "status": "partial",
   "theorems": [
    "Verif.Var.C62_bootstrap_overwrites",
    "Verif.Var.C62_model_changed"
   ],
   "note": "The claim is false: the object always ends with the matrices of the last resample (proved for all inputs), with a concrete least-squares instance."
  },
  {
   "property": "C63",
   "status": "partial",
   "theorems": [
    "Verif.Var.C63_residuals_shrink",
    "Verif.Var.C63_absorbing",
    "Verif.Var.C63_residuals_lost"
   ],
   "note": "The claim is false: rounds draw from the residuals of the previous round; with fixed VAR coefficients the set of residuals only shrinks (proved for all inputs)."
  },
  {
   "property": "C64",
   "status": "proved",
   "theorems": [
    "Verif.Var.C64_instantaneous_acyclic",
    "Verif.Varma.C64_varma_instantaneous_acyclic"
   ],
   "note": "the LiNGAM result is any matrix consistent with its order"
  },
  {
   "property": "C65",
   "status": "proved",
   "theorems": [
    "Verif.Var.C65_pruning_regression"
   ],
   "note": "adaptive lasso arbitrary"
  },
  {
   "property": "C66",
   "status": "proved",
   "theorems": [
    "Verif.Var.C66_paths_exact",
    "Verif.Var.C66_refused"
   ],
   "note": "the same function models the VARMA result (identical expansion code); counting over samples is C21"
  },
  {
   "property": "C67",
   "status": "partial",
   "theorems": [
    "Verif.Var.C67_adjustment_set",
    "Verif.Var.C67_source_coefficient",
    "Verif.Var.C67_lagged_columns_partial",
    "Verif.Var.C67_wraps_around"
   ],
   "note": "The adjustment set is right. The data rows are right from the largest used lag on; the first rows use values from the end of the series (proved)."
  },
  {
   "property": "C68",
   "status": "partial",
   "theorems": [
    "Verif.Varma.C68_specified_coefficients_fail",
    "Verif.Varma.C68_second_fit_fails"
   ],
   "note": "The claim is false whenever pruning is on and there is an MA part (proved for all data)."
  },
  {
   "property": "C69",
   "status": "proved",
   "theorems": [
    "Verif.Var.C69_series_follows_var"
   ],
   "note": ""
  },
  {
   "property": "C70",
   "status": "partial",
   "theorems": [
    "Verif.Varma.C70_lag_zero_partial",
    "Verif.Varma.C70_wrong_adjustment",
    "Verif.Varma.C70_zero_column"
   ],
   "note": "Right at lag 0; for lag >= 1 the wrong column is used whenever the last AR lag has a nonzero coefficient (proved)."
  },
  {
   "property": "C71",
   "status": "proved",
   "theorems": [
    "Verif.Varma.C71_residuals",
    "Verif.Varma.C71_series_follows_varma"
   ],
   "note": ""
  },
  {
   "property": "C72",
   "status": "partial",
   "theorems": [
    "Verif.Longitudinal.C72_prior_zero_partial",
    "Verif.Longitudinal.C72_window",
    "Verif.Longitudinal.C72_prior_order",
    "Verif.Longitudinal.C72_prior_zero_violated"
   ],
   "note": "Right for n_lags <= 1; for more lags the zero appears at the reversed lag (proved), witness given. The time window holds always."
  },
  {
   "property": "C73",
   "status": "proved",
   "theorems": [
    "Verif.Longitudinal.C73_total_effect_is_path_sum",
    "Verif.Longitudinal.C73_fitted"
   ],
   "note": "relative to adjacency_matrices_ as documented; for n_lags >= 2 the lags are misplaced, see C41"
  },
  {
   "property": "C74",
   "status": "proved",
   "theorems": [
    "Verif.Longitudinal.C74_paths_exact",
    "Verif.Longitudinal.C74_refused"
   ],
   "note": "per bootstrap sample; counting is C21"
  },
  {
   "property": "C75",
   "status": "partial",
   "theorems": [
    "Verif.Longitudinal.C75_late_start_partial",
    "Verif.Longitudinal.C75_early_start_fails"
   ],
   "note": "False for a start before n_lags (the default for n_lags >= 2): always an error, proved; otherwise it succeeds, proved without prior knowledge."
  },
  {
   "property": "C76",
   "status": "proved",
   "theorems": [
    "Verif.Longitudinal.C76_orders",
    "Verif.Longitudinal.C76_needs_two_times"
   ],
   "note": "prior knowledge of the right shape"
  },
  {
   "property": "C77",
   "status": "partial",
   "theorems": [
    "Verif.Longitudinal.C77_residuals_partial",
    "Verif.Longitudinal.C77_prior_no_residuals"
   ],
   "note": "Right without prior knowledge; with prior knowledge the attribute never exists (proved)."
  },
  {
   "property": "C78",
   "status": "proved",
   "theorems": [
    "Verif.Longitudinal.C78_fit_history_independent",
    "Verif.Longitudinal.C78_bootstrap_samples"
   ],
   "note": "starts from time point n_lags on (see C75)"
  },
  {
   "property": "C79",
   "status": "partial",
   "theorems": [
    "Verif.Longitudinal.C79_adjustment_partial",
    "Verif.Longitudinal.C79_wrong_time"
   ],
   "note": "Right relative to the documented lag positions, so for n_lags = 1; for two lags a witness uses the wrong time point."
  },
  {
   "property": "C80",
   "status": "partial",
   "theorems": [
    "Verif.Lim.C80_constraint",
    "Verif.Lim.C80_logistic",
    "Verif.Lim.C80_l2",
    "Verif.Lim.C80_lina_poisson",
    "Verif.Lim.C80_lina_laplace",
    "Verif.Lim.C80_lina_objective",
    "Verif.Lim.C80_mixed_continuous_partial",
    "Verif.Lim.C80_mixed_discrete_sign",
    "Verif.Lim.C80_lim_laplace_sign",
    "Verif.Lim.C80_lim_poisson_true",
    "Verif.Lim.C80_lim_poisson_iff",
    "Verif.Lim.C80_wrong_gradients"
   ],
   "note": "Proved for LiNA (all losses), the constraint, LiM logistic and LiM mixed with only continuous variables. False for LiM laplace and mixed with discrete variables (sign) and poisson (witness)."
  },
  {
   "property": "C81",
   "status": "proved",
   "theorems": [
    "Verif.Lim.C81_improves",
    "Verif.Lim.C81_skeleton"
   ],
   "note": "score arbitrary"
  },
  {
   "property": "C82",
   "status": "partial",
   "theorems": [
    "Verif.Lim.C82_only_global_partial",
    "Verif.Lim.C82_loss_type_lost",
    "Verif.Lim.C82_history_dependent"
   ],
   "note": "Holds with only_global=True. Otherwise false: the loss type is overwritten by the first fit (proved for all inputs)."
  },
  {
   "property": "C83",
   "status": "partial",
   "theorems": [
    "Verif.Lim.C83_terminates",
    "Verif.Lim.C83_solution_partial",
    "Verif.Lim.C83_random_result"
   ],
   "note": "Termination proved. The result may be random start values (witness), otherwise it is a solution of the optimiser."
  },
  {
   "property": "C84",
   "status": "partial",
   "theorems": [
    "Verif.Simulator.C84_accepts_iff",
    "Verif.Simulator.C84_series_partial",
    "Verif.Simulator.C84_lags_fixed",
    "Verif.Simulator.C84_inconsistent"
   ],
   "note": "Holds without changes. False with changes: lagged columns always keep the observed values (proved), so a witness is inconsistent."
  },
  {
   "property": "C85",
   "status": "partial",
   "theorems": [
    "Verif.Cdg.C85_do_cause_partial",
    "Verif.Cdg.C85_exog_adjustment",
    "Verif.Cdg.C85_unknown_name",
    "Verif.Cdg.C85_adjustment_ignored",
    "Verif.Cdg.C85_equations",
    "Verif.Cdg.C85_exog_categorical_ignored"
   ],
   "note": "The generated data satisfy the documented equations. Setting an adjustment variable with interv_endog, or exogenous values of a categorical cause, is accepted and ignored (proved for all inputs)."
  },
  {
   "property": "C86",
   "status": "partial",
   "theorems": [
    "Verif.Oct.C86_undefined_score",
    "Verif.Oct.C86_undefined_selected"
   ],
   "note": "The claim is false: the first configuration with an undefined score is always chosen as best (proved), witness with one split and an isolated variable."
  },
  {
   "property": "C87",
   "status": "partial",
   "theorems": [
    "Verif.Oct.C87_accepts_iff_partial",
    "Verif.Oct.C87_missing_model_accepted"
   ],
   "note": "All checks are right except that a missing model is accepted (proved)."
  },
  {
   "property": "C88",
   "status": "partial",
   "theorems": [
    "Verif.Imputation.C88_default_iff_partial",
    "Verif.Imputation.C88_keeps_observed",
    "Verif.Imputation.C88_fails"
   ],
   "note": "False: a resample that leaves a column entirely missing raises (exact condition proved, witness)."
  },
  {
   "property": "C89",
   "status": "proved",
   "theorems": [
    "Verif.MultiGroup.C89_agreement",
    "Verif.MultiGroup.C89_common_order"
   ],
   "note": "statistics are oracles; exact arithmetic"
  },
  {
   "property": "C90",
   "status": "partial",
   "theorems": [
    "Verif.MultiGroup.C90_monotone_partial",
    "Verif.MultiGroup.C90_rcd_decisions",
    "Verif.MultiGroup.C90_camuv_decisions"
   ],
   "note": "Fisher combination for increasing log and decreasing survival function. The fcorr branch of RCD ignores all but the last data set, see C48."
  },
  {
   "property": "C91",
   "status": "partial",
   "theorems": [
    "Verif.MultiGroup.C91_unconfounded_partial",
    "Verif.MultiGroup.C91_confounded_recorded_zero"
   ],
   "note": "Right without confounders of the source. Otherwise 0 is recorded for every data set (proved for all inputs)."
  },
  {
   "property": "C92",
   "status": "proved",
   "theorems": [
    "Verif.Direct.C92_removal_keeps_model"
   ],
   "note": "exact arithmetic, float data"
  },
  {
   "property": "C93",
   "status": "proved",
   "theorems": [
    "Verif.Direct.C93_order_recovered_pwling",
    "Verif.Direct.C93_order_recovered_kernel",
    "Verif.Direct.C93_standardised_model"
   ],
   "note": "the measure being right is a hypothesis on the pairwise statistic; no or hard prior knowledge; exact arithmetic; kernel for standardised data"
  },
  {
   "property": "C94",
   "status": "proved",
   "theorems": [
    "Verif.Direct.C94_coefficients_recovered",
    "Verif.Direct.C94_errors_recovered"
   ],
   "note": "least squares and a selection keeping the true parents are hypotheses on the regressions"
  },
  {
   "property": "C95",
   "status": "proved",
   "theorems": [
    "Verif.Direct.C95_total_effect_recovered",
    "Verif.Direct.C95_total_effect_after_fit"
   ],
   "note": "least squares as hypothesis on the regression; exact arithmetic"
  },
  {
   "property": "C96",
   "status": "partial",
   "theorems": [
    "Verif.Direct.C96_true_paths_compatible_partial",
    "Verif.Direct.C96_true_knowledge_blocks_truth"
   ],
   "note": "False: no-path statements are turned into an order, so two true ones can exclude a true edge for all data (witness). True statements about existing paths are harmless (proved)."
  },
  {
   "property": "C97",
   "status": "partial",
   "theorems": [
    "Verif.Direct.C97_pwling_uses_soft_knowledge_partial",
    "Verif.Direct.C97_kernel_ignores_soft_knowledge"
   ],
   "note": "Proved for pwling. False for kernel: the knowledge is never used (proved for all inputs)."
  },
  {
   "property": "C98",
   "status": "partial",
   "theorems": [
    "Verif.Direct.C98_type_irrelevant_partial",
    "Verif.Direct.C98_integer_type_changes_order"
   ],
   "note": "False for pwling: residuals are truncated when written back to an integer array (witness with a different order). Holds for kernel, which scales first."
  },
  {
   "property": "C99",
   "status": "proved",
   "theorems": [
    "Verif.Rcd.C99_rcd_recovers_model",
    "Verif.Rcd.C99_total_effects"
   ],
   "note": "population level: tests and regressions are right by hypothesis (PerfectTests, PerfectCoef; shown satisfiable for every model by popTests_perfect and perfectCoef_exists); coefficients and variances rational"
  }
 ]
}