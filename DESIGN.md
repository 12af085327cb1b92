# Formal model of cdt15/lingam: design

## Setting
The code under study is `/repo` (Python, pinned commit). It is read as text only; nothing of it is run.
The model is written in Lean 4.33 with single Mathlib modules, in the Lake project `/verif/lean`:

* `Verif/Spec/*`  – small specifications (paths, acyclicity, precedence, counting, linear models on samples and on
  distributions, derivatives). They do not mention the model; the one exception is `Spec/PerfectTests`, which says what
  it means that the test oracles of RCD are right and therefore names their type.
* `Verif/Model/*` – the model, function by function. Each definition cites the file and lines it models.
* `Verif/Proofs/*` – helper lemmas.
* `Verif/Props/*` – the property theorems (named `Cnn_...`), with concrete `example`s meeting their hypotheses.

`properties.jsonl` has the claims in words, `MANIFEST.json` the theorem names and what is missing from partial ones,
`seeded/LOG.jsonl` the mutation tests.

## Modelling conventions
* Numbers: exact. Coefficients live in an arbitrary linearly ordered field `K` (or `ℚ` when executability helps; `ℝ` for
  the derivatives of LiM and LiNA). Floating point rounding, overflow and infinities are **not** modelled, except where
  infinity is a value the code compares (BottomUpParceLiNGAM). NaN is `none` in `Option K` where the code uses it.
* Matrices: functions `Nat → Nat → K` with an explicit size `n`; only indices `< n` are meaningful; row = target.
* Exceptions are values (`Except`/`Option`); loops are folds, structural recursion, or fuelled recursion together with
  a theorem that the fuel suffices (that theorem *is* the termination property).
* Statistical computations (regression, lasso, HSIC, entropy, Shapiro, Pearson, optimisers, random draws) are
  **oracles**: parameters of the model, universally quantified in the theorems. An oracle takes everything its real
  counterpart can depend on (for example the list of variables regressed out so far), so that "for every oracle" covers
  "for every data set". Recovery theorems (C58, C92–C95, C99–C101, C177–C179 and others noted below) assume in addition that the oracles are right, in
  terms of the true model.
* Library sorting with unspecified tie order (`np.argsort`, default quicksort) is modelled by *any* sorted permutation;
  iteration over Python sets by *any* order where it can matter (CAM-UV).
* State kept in `self` between calls is a record passed in and out where a property is about it (VAR, VARMA,
  LongitudinalLiNGAM, LiM, bootstrap).

## Trusted base
* Lean's kernel, and for every theorem at most the three standard axioms `propext`, `Classical.choice`, `Quot.sound`.
  No axiom is declared, there is no `sorry`, `native_decide` or `bv_decide`; concrete witnesses use `decide +kernel`,
  which is checked by the kernel alone.
* The reading of the Python code recorded in the model's comments (no code was run).
* numpy/scipy/sklearn/networkx/pandas semantics as stated at each oracle or helper: `np.argmax/argmin` return the first
  optimum, `np.unique` sorts lexicographically, `np.argsort` gives some sorting permutation, `np.linalg.inv` the inverse,
  networkx shortest paths are layers, `np.roll` wraps around, writing floats into an integer array truncates.

## What is modelled
| file in `/repo/lingam` | model | left out |
|---|---|---|
| `base.py`, `direct_lingam.py`, `utils/__init__.py` (`predict_adaptive_lasso`) | `DirectLingam`, `DirectData`, `Pairwise`, `AdaptiveLasso`, `TotalEffect`, `KernelMi`, `PriorKnowledge` | the measures are computed over the reals in `Pairwise` (`pwling`) and `KernelMi` (`kernel`) and are oracles in the search; lasso is an oracle except in `AdaptiveLasso` (only the path and least squares are); GPU branch of `pwling_fast` |
| `utils/__init__.py` paths, total effects, prior knowledge, sinks, distances, p-values, imputation bootstrap, drawings | `Paths`, `PriorKnowledge`, `Utils`, `Imputation`, `Drawing`, `DataUtils`, `Score` | colours, positions and prediction models of the drawings, `print_*`, the fit indices of `evaluate_model_fit` (semopy) |
| `bootstrap.py` | `Bootstrap` | `n_jobs` parallelism |
| `ica_lingam.py` | `Ica` | FastICA (oracle), Hungarian algorithm (any optimal assignment) |
| `rcd.py`, `utils/_rcd.py`, `multi_group_rcd.py` | `Rcd`, `RcdEffects`, `MultiGroup`, `ErrorTests`, `GroupBoot` | numerical content of tests; `MLHSICR` optimiser |
| `camuv.py`, `multi_group_camuv.py` | `Camuv`, `MultiGroup` | GAM regressions |
| `resit.py` | `Resit` | regressor, HSIC |
| `bottom_up_parce_lingam.py` | `Parce`, `ParceEffects` | regressions, tests |
| `causal_effect.py` | `CausalEffect` | prediction models |
| `var_lingam.py`, `varma_lingam.py` | `Var`, `Varma`, `ErrorTests` | statsmodels estimation (oracle) |
| `longitudinal_lingam.py` | `Longitudinal`, `LongResult`, `ErrorTests` | – |
| `utils/_visualize_nonlinear_causal_effect.py` | `VisualEffect` | estimators, `np.percentile` (oracles); categorical columns, axes |
| `lim.py`, `lina.py` | `Lim`, `LimLoss`, `Score`, `Lina`, `LinaLoss` | L-BFGS and BFGS, `psy.cfa` (oracles); `calc_vif` |
| `causal_based_simulator.py` | `Simulator` | sklearn estimators (oracles) |
| `experimental/cdg.py`, `experimental/oct.py`, `tools/__init__.py` | `Cdg`, `Oct`, `Imputation` | random forests and random permutations (oracles) |
| `multi_group_direct_lingam.py` | `MultiGroup`, `MultiGroupData`, `ErrorTests`, `GroupBoot` | – |
| `hsic.py` | `Hsic` | bandwidth rules `scott` and `silverman`; the gamma survival function is an oracle |
| `high_dim_direct_lingam.py` | `HighDim` | adaptive Lasso and pseudo inverse (oracles), argument checks |
| `utils/_f_correlation.py` | `FCorr` | `eigh`, `eigsh` (oracles); arrays with several columns only by shape; the callers use it as an oracle |

Also not modelled: type and shape validation by sklearn (`check_array`) except where a property is about it, plotting,
random number generators (draws are oracles), dtype promotion except in C98.

## Plan per property
| id | modelled | how proved |
|----|----------|------------|
| C01 | `DirectLiNGAM.fit` ordering loop, scores are an oracle, numpy `argmax` modelled | invariant: order ++ remaining is a permutation |
| C02 | `_estimate_adjacency_matrix`, regression is an oracle | loop invariant; rank argument for acyclicity |
| C03 | same, with prior knowledge filter | loop invariant |
| C04 | `_extract_partial_orders`, hard `_search_candidate`, update of the partial orders | invariant: pairs with an unplaced source are still in the table |
| C05 | same plus the empty-argmax error | a finite acyclic relation has a minimal element; conversely every returned order linearises the relation |
| C06 | soft `_search_candidate` | minimal-element argument; each step characterised against a separate definition of candidates; negation witness for contradicting paths |
| C07 | `make_prior_knowledge` | fold invariants against a closed-form spec |
| C08 | composition of C07 and C03 | corollary |
| C09 | `find_all_paths` including the aliased neighbour list, as a step machine | DFS correctness against the inductive definition of path |
| C10 | effect computation | list lemma |
| C11 | step machine with fuel | explicit measure |
| C12 | step machine on cyclic graphs | negation by a witness; partial theorem for cycles avoiding both end points |
| C13 | `calculate_total_effect` | first-step recurrence of the path sum, matrix identity `T (1-B) = 1`; argument checks by cases |
| C14 | same + bootstrap loop | no path against the order |
| C15 | `find_all_paths` with thresholds | from C09 |
| C16–C18 | `BootstrapResult` counting (`np.unique`, `argsort`) | counting lemmas over lists |
| C19 | `get_probabilities` | counting lemmas |
| C20 | `get_total_causal_effects` | counting; negation witness for the median's sample set |
| C21 | `get_paths` incl. `"_".join` encoding | injectivity of decimal rendering and join; counting |
| C22 | bootstrap loop | loop invariant |
| C23, C24 | ICA `_search_causal_order`, `_estimate_causal_order` | elimination invariant; counting argument |
| C25–C27 | RCD loops with test oracles | lexicographic measure; set invariants; witness for a 3-cycle |
| C28–C30 | CAM-UV loops with test oracles | same |
| C31 | RESIT loops | loop invariants |
| C32 | BottomUpParceLiNGAM loops | loop invariants |
| C33–C35 | CausalEffect | elimination invariant; triangular solve; schedule induction |
| C36, C40 | matrix algebra of VAR/VARMA | ring identities in `Matrix` |
| C37 | `fit` as a state machine over the object's attributes | negation witness + partial |
| C38, C39 | expansion matrices and lag indexing | reachability in the padded matrix; witness + partial |
| C41 | block bookkeeping of LongitudinalLiNGAM | index arithmetic for all lags; witness for two lags |
| C42, C43 | `_h` as entries of matrix powers (sums over index ranges) | a power's diagonal entry is positive iff there is a closed walk; bound for thresholded cycles; witness for the tolerance |
| C44, C45 | CausalBasedSimulator train/run | induction along the causal order |
| C46 | CausalDataGenerator | direct |
| C47 | `_get_mb`, `_sparsity_penalty` | direct |
| C48 | aggregation over data sets | permutation invariance of sums; witness |
| C49, C50, C51, C52 | matrix utilities, imputation bootstrap | direct; layers for distances |
| C53 | `_search_causal_order_fast` ignoring the candidates | witness; totality as for C01 |
| C54, C57 | partial orders from pairs of prior knowledge entries | witness; order argument for the one-sided case |
| C55 | rows of `_estimate_adjacency_matrix` | loop invariant relating each row to one call of the oracle |
| C56 | one ordering step | `argmax` specification |
| C58 | ICA post-processing on an exact unmixing matrix | uniqueness of the assignment, scaling, elimination |
| C59 | `RCD.bootstrap`, total effects | fold specification; witness |
| C60 | CAM-UV loop bounds | equality of the two loops; witness |
| C61 | candidate selection with infinite statistics | invariant over accepted sinks; all-infinite case for every n |
| C62, C63 | `VARLiNGAM.bootstrap` as a state machine | fold over rounds; residual sets decrease |
| C64, C65 | instantaneous matrix and pruning | C02; index arithmetic of the lagged predictors |
| C66 | `VARBootstrapResult.get_paths` | C09 on the expansion matrix, translation of indices |
| C67 | `VARLiNGAM.estimate_total_effect` | index arithmetic of `np.roll` and of the parents |
| C68, C70, C71 | VARMA fit, total effect, residuals, generated series | control flow; recursion equations |
| C69 | VAR bootstrap series | recursion equation |
| C72–C79 | LongitudinalLiNGAM fit, prior knowledge, effects, bootstrap | block indices, C09/C13 on the time-unrolled graph, witnesses for two lags |
| C80 | losses and gradients of LiM/LiNA over the reals | `HasDerivAt` computations; witnesses for wrong signs |
| C81–C83 | LiM local search, state, termination | loop invariants; fuel; witnesses |
| C84 | simulator with lagged columns | induction along the order; witness |
| C85 | interventions in the data generator | direct, all inputs |
| C86, C87 | OCT scoring and argument checks | direct, NaN semantics of `argmin` |
| C88 | default imputer in the imputation bootstrap | exact condition |
| C89–C91 | multi-group search, p-value combination, bootstrap | sums of scores; monotonicity of Fisher's statistic; control flow |
| C92–C95 | DirectLiNGAM on data following a linear model (`Spec/Lsem`) | induction over removed variables; uniqueness of least squares; back-door adjustment |
| C96 | prior knowledge true of the graph | order argument; witness |
| C97 | the two measures with soft prior knowledge | unfolding for all inputs |
| C98 | integer arrays in `fit` | truncating write; witness |
| C99 | the whole of `RCD.fit` with correct tests, at the level of the distribution (`Spec/Population`) | residuals on ancestor-closed sets drop exactly the errors of the set; search invariant (sound, and visited pairs are recorded); topological induction for completeness; three-variable sets never change anything |
| C100, C101 | same with hidden sources | own error of a cause stays after regression on its ancestors; computed exact tests for the witnesses |
| C102 | order selection of VAR and VARMA | first minimum of a fold over the enumerated orders |
| C103, C105 | the bootstrap loops of VAR and VARMA | invariant over the rounds; witnesses; failing branch for all inputs |
| C104 | the assignments of total effects in the VAR bootstrap | every cell is written once; order argument |
| C106 | `VARMALiNGAM._pruning` | block and column arithmetic; `np.roll` |
| C107 | LiM local search over orientations, deletions, additions | accepted values only decrease; closed form of the edge reversals |
| C108, C109 | residual shuffling and `coef` models of the simulator | uniqueness of the solution of the structural equations |
| C110, C111 | folds, predictions and scores of OCT | congruence; Cauchy-Schwarz for lists |
| C112 | the loops of LiNA | invariant of the penalty and of the violation over the passes |
| C113–C117 | `hsic.py` with the default bandwidth, over the reals | positive definiteness of the Gaussian kernel from the exponential series and the Schur product theorem; double sums |
| C118–C122 | `high_dim_direct_lingam.py`: statistics, residuals, the loop and the matrix, on rational samples | loop invariants; uniqueness of least squares residuals; Gram-Schmidt for the witnesses; linear functionals of the errors for recovery |
| C123–C125 | `make_dot` as a list of nodes and arrows with their meaningful attributes; networkx's lists of paths and cycles are parameters with their documented property | one cell per arrow; a walk contains a simple path; rotations of cycles |
| C126–C129 | `make_dot_highlight`: limit, clusters by shortest path lengths, copies of nodes and arrows between them | walks of given length; the shortest one is simple, hence shorter than the number of nodes |
| C130, C131, C134, C135 | `remove_effect` and the model description of `evaluate_model_fit` on rational data; the regression is a parameter with the normal equations | uniqueness of least squares residuals; spans |
| C132, C133, C136–C139 | `likelihood_i`, `variance_i`, `log_p_super_gaussian` and LiM's `_bic_scoring` over the reals; the regressions are parameters | homogeneity of the variance; the exponential integral; uniqueness of residuals; Gibbs' inequality |
| C140–C144 | DirectLiNGAM with measure `pwling` over the reals: mean, covariance, residual, entropy approximation, `_diff_mutual_info`, `_search_causal_order`, `fit`; no oracle for the order | affine changes and reorderings of rows keep every comparison; a strictly best variable is found in any column order; standardised pairs; linear independence survives the removal of effects |
| C145–C148 | `f_correlation` over the reals: standardisation, incomplete Cholesky decomposition with pivoting, `_svd`, `R_kappa`; shapes of arrays for C148; `eigh`, `argsort`, `eigsh` are parameters with their documented property | the remainder of the decomposition stays positive semidefinite (Cauchy–Schwarz) and its trace is the stopping criterion; Bessel's inequality for dropped eigenvalues; the block matrix is positive definite |
| C149, C150 | `Parce` with tests that answer correctly about a linear model with hidden causes, written as coefficients on independent sources | variables are linearly independent on their own errors; a candidate passes iff it touches no other remaining variable; invariant "everything a placed variable touches is placed after it"; concrete counterexamples for prior knowledge |
| C151, C152 | `estimate_total_effect`, `estimate_total_effect2` and the loops of `bootstrap` in `ParceEffects` on top of `Parce` | a hidden cause of a resolved variable is private, so the regression on the source and its causes isolates the own error; the column of the inverse solves the equations of the model; the list of pairs visited by `bootstrap` is characterised by the order |
| C153, C154 | `Var` on a series that follows structural equations; VAR estimation and LiNGAM are parameters with their defining property (normal equations without intercept; right on data following the model) | the residuals follow the instantaneous model exactly; predecessors and past are independent (reverse induction along the order, covariance with the errors), so the pruning regression returns the true row; shift identity for C154 |
| C155 | `Longitudinal` on a panel that follows structural equations; `LinearRegression` has the normal equations with intercept, `DirectLiNGAM` is right for the instantaneous model (derived from its pairwise statistic, C94) | the difference of true and estimated lag coefficients is uncorrelated with itself, so it vanishes and the residuals follow the instantaneous model exactly |
| C156 | `MultiGroup` on samples (`MultiGroupData`): each group has its own size, numerics, regressions and true model | the weighted sum of the statistics is zero for variables without parents in the union graph and positive for the others, so the order follows the union graph; then C94 and C95 for each group |
| C157, C158 | `Resit` with statistics that are right about a linear model at population level (`Spec/ResitTests`) | order: the predecessors contain all causes (reverse induction), so a variable with an effect is never taken before one without; edges: exact run of the removal loop, independence of residuals from sources that are left out |
| C159, C160, C161 | `LongResult`: the loops over time points around the code shared with `Bootstrap`, on the concatenated lag matrices; `get_paths` on the expanded matrices | columns of the concatenation and shifted windows are bijections; then C16–C21 |
| C162, C163 | `ErrorTests`: `get_error_independence_p_values` of the time series and multi-group models; the p-value of two columns is a parameter | the table is the fold of symmetric updates over all pairs (as in C49); the tested columns are rewritten with C36, C41, C71 into the errors of the structural equations, or shown to differ from them |
| C164, C165 | `GroupBoot`: `bootstrap` and `estimate_total_effect2` of MultiGroupDirectLiNGAM (joint fits are parameters, or those of `MultiGroup`), `estimate_total_effect` of MultiGroupRCD | the joint loop restricted to one data set is the loop of the plain bootstrap (C22); induction over samples, data sets and pairs; NaN is common to all matrices of a joint fit (C91) |
| C166 | `KernelMi`: `_mutual_information` over the reals, with singular values as square roots of the eigenvalues of the Gram matrix | Gaussian kernel matrices are positive semidefinite (from C113-C117), the joint matrix is positive definite, strict Fischer inequality through the Schur complement |
| C167, C168, C169, C170 | `Lina`: the parts of `LiNA.fit` and `MDLiNA.fit` around the optimisers (factor scores, scaling, alternating loop, passes for H, renumbering); `psy.cfa`, optimisers, objective values and random numbers are parameters; NaN objectives are `none`, scores of the passes are finite | normal equations; greedy matching specified independently, induction over its steps; the loop by induction over rounds, the stopping conditions rewritten into a rule on finite values |
| C171, C172, C173 | `LinaLoss`: the loss, its returned gradient and the doubled-variable objective of `MDLiNA._estimate_MDLiNA_H` over the reals; columns with standard deviation 0 (NaN in the code) are excluded by hypotheses; BFGS is not modelled | derivative of the matrix inverse (Mathlib's `hasFDerivAt_ringInverse`) for the reconstruction error; the loss is constant along H while the returned matrix has a positive slope there |
| C174, C175, C176 | `VisualEffect`: `visualize_nonlinear_causal_effect` for numeric data frames with integer labels: argument checks, explanatory variables, values, lines; the estimator and `np.percentile` are parameters, axes and colours are left out | induction over samples, positions and classes; the linear case through C95's regression lemma |
| C177, C178, C179 | `Rcd` at the population level with hidden sources | the clean part of the graph (no hidden cause above) is searched correctly: invariants "nothing false about a clean variable" and "every clean ancestor is found" through pairs and triples; the parent test is the support of the regression on all recorded ancestors |
| C180, C181 | `RcdEffects`, `Rcd` at the population level with hidden sources | the own error of a clean source is a combination of the regressors; the column of total effects solves the equations of the estimated matrix, because a residual containing the source's error would be marked NaN; explicit five-variable witness of a cycle |
| C182–C184 | `Camuv` at the population level (`RightTests`: linear fits, every test right; the additive fit of the code is taken to be the best linear one) | the own error of a variable stays in its residual on ancestors, so an accepted pair is in causal order; at the end of the search the earliest missing ancestor with a path avoiding the recorded parents would still be accepted; explicit witnesses for the indirect cause and for cancellation |
| C185–C186 | `MultiGroup.rcdFit` at the population level (`PooledTests`: correlated in some population, independent in all) | the search of RCD is proved for an abstract strict order from a list of facts (`SearchFacts`); these facts are derived for pooled tests, where a set closed under the effects of all populations is closed in each; the F-correlation witness is evaluated |
| C187–C189 | `Mlhsicr.objective`, `fitResid`: the MLHSICR objective on top of the HSIC model, the optimiser as an oracle | algebra of the Gaussian kernel (invariance under affine maps with scaled width); violations by collinear data (sign), a two-valued column (test statistic) and a point of the hyperplane where the width is 0 |
| C190–C191 | `Varma.fit` with an exactly estimated reduced form (`ReducedForm`), or with given coefficients | matrix algebra with `(I - Psi_0)`; the error of the residuals satisfies the homogeneous moving average recursion, solved by iteration |
| C192–C193 | `Ica.fit` as a function of the unmixing matrix | best matchings correspond under permutation of rows; for units growing fast along an order, the entries against this order are the smallest ones and are zeroed first |
| C194 | `Ica.fit` on a matrix near a true unmixing matrix (`NearUnmixing`) | bounds on the rescaled matrix: true zeros stay below the smallest true coefficient, so they are zeroed first; explicit two-variable family for sharpness |
| C195 | `Camuv.fit` with `MultiGroup.camCfg`; populations as in `Spec/CamGroups` | as C182–C183, with ancestors taken over all data sets |
| C196 | `MultiGroup.rcdFit` with `Spec/PooledHidden` | as C100: a pair is ordered only if some population correlates it, and there the own error of the cause decides; counterexample by kernel computation |
| C197–C198 | `Model/AdaptiveLasso`: `predict_adaptive_lasso` and `LassoLarsIC(criterion="bic")` over the reals, path and least squares as oracles (`Spec/Lasso`) | uniqueness of residuals and coefficients of least squares, behaviour under units; the criterion is computed at the ends of the path |
| C199 | `Model/Var` as before; the parts are linked to `Model/AdaptiveLasso` by `lassoLingam`, `lassoReg`; `Spec/Units` | uniqueness of least squares on an independent window; residuals and designs inherit independence; the criteria change by a monotone function |
| C200 | `Model/Bootstrap`, `Model/Paths`, `Model/Var` as before | the search looks only at which entries are nonzero; products along a path telescope; medians commute with positive factors |
| C201 | `Model/RcdData`: the tests of `rcd.py` as functions of the data (regressions with intercept, Pearson correlation, HSIC test, F-correlation, MLHSICR), used by the search of `Model/Rcd`; `Spec/Units.LeastSquaresFit`, `OtherUnits`, `ColumnsIndependent` | least squares residuals are unique and only change by the unit of the regressed variable; C114, C145; coefficients by independence of the columns |
| C202 | `Model/ParceData`: centring, regressions, Fisher's combination of HSIC tests and the largest F-correlation as functions of the data, used by the search of `Model/Parce` (now over any ordered field) and with `Model/AdaptiveLasso` | as for C201; the configuration of the search is the same function, the rows are adaptive Lasso regressions (C197) |
| C203 | `Model/LongData`: regressions on the earlier time points as functions of the panel, inner `DirectLiNGAM` of `Model/AdaptiveLasso`, assembly as in `Model/Longitudinal`; `Spec/Units.TimesIndependent` | uniqueness of least squares; residuals inherit independence; C197 for the inner fits; products of converted matrices |
| C204 | `Model/GroupData`: evidence of the data sets weighted by their sizes, common order, regressions per data set; pairwise statistic of `Model/Pairwise`, adaptive Lasso of `Model/AdaptiveLasso` | relation between working data that fixes all comparisons and survives residuals (C144), applied data set by data set; permutations of sums; C197 for the matrices |
| C205 | `Model/SimulatorNames`: names, argument checks, dictionaries, `train` and `run` by name | refinement: for distinct names the computation by name is the computation by column number of `Model/Simulator`, then C45 |
| C206 | `Model/ExtractAncestors`: `extract_ancestors` transcribed loop by loop, independently of `Model/Rcd` and `Model/RcdData` search | simulation: the states of the two programs correspond after every subset; then C25 and the lemmas of C201 |
| C207 | `Model/PrintBoot`: the printed lines as lists of characters; the percentage exactly, the rounding as an oracle that errs by at most half a tenth | C16, C17, C18 give the counts; the text is compared with an interpolated string; arithmetic on the shares; splitting at blanks for readability |
| C208 | `Model/IntegerData`: `RCD.fit`, `CAMUV.fit` and `MultiGroupDirectLiNGAM.fit` with the conversion of residuals on assignment; regressions and tests on columns are oracles | the stored columns agree if the residuals are integers; small residuals become constant columns; the violations by evaluation on data with exactly independent errors |
| C209 | `Model/EffectObject`: `_check_init_params` with the state it keeps, over a sequence of calls; an array is kept as a reference, a list as a copy | induction over the calls; uniqueness of the solution of the structural equations (C34) for another consistent order; violations by evaluation |
| C210 | `Model/CdgRows`: alignment of interventions and selection of the rows by label, as pandas does them, around the model of `generate` | counting of the selected positions; assignment by position when the labels agree; violations for all data with a repeated label and all Series with foreign labels |
| C211 | `Model/ImputationDefault`: `bootstrap_with_imputation` with `_DefaultMultipleImputation` and `_DefaultMultiGroupCDModel` (the model of `MultiGroupDirectLiNGAM.fit`); fill-ins, statistics, regressions and resamples are oracles | composition of C88, C05, C89, C03 and C04 |
| C212 | `Model/Resit` run on the original and on the permuted statistics and p-values | induction over the search: without ties the chosen variable is the same; the removal loop computed for tests that decide like a graph; violations on concrete statistics and population tests |
| C213 | `Model/Rcd` on a linear model and on the same model with variables and errors renamed | the renamed model is again a model; C99, C177, C178 for both; population tests evaluated on a model with four variables and one hidden cause for the violation |
| C214 | `Model/Camuv` on a linear model and on the renamed model | residuals and `NoAccident` carry over to the renamed model; C183 for both; population tests evaluated on a model with four variables and one hidden cause for the violation |
| C215 | `Model/GroupData`, `Model/DirectLingam`, `Model/AdaptiveLasso` on the data and on reordered columns | candidates (no, hard and soft prior knowledge), evidence, residuals, predictors and regressions correspond step by step; a strict minimum is found wherever it stands; `Spec/JointOrder` gives the order independently of the model; ties via C142 |
| C216 | `Model/Refit`: the attributes of the objects as state, assigned in the order of the code, on top of `Model/GroupData`, `Model/Ica`, `Model/Parce`, `Model/Var` | each call replaces both results or none when the regressions cannot fail; fold over the series of calls; concrete series for the violations |
| C217 | `Ica.fit` on an unmixing matrix with reordered columns | the entries zeroed are those below a threshold; the graph of the others is the largest acyclic one of bounded size (`Spec/Strongest`), which is unique and moves with the columns; best matchings move with the columns; concrete witness |
| C218 | `Model/SimulatorDiscrete`: numpy indexing of the names by flags or numbers, list repetition against array multiplication | membership of each name by its position; concrete names |
| C219 | `Model/AdaptiveLasso.predict`, path routine as an oracle that follows its columns (`Spec/Shuffle.TreatsAlike`) | uniqueness of least squares, then the list of candidate coefficients and the criterion are rearranged |
| C220 | `Model/Var.fit` with `lassoLingam`, `lassoReg` and least squares autoregression | C215 for the residuals, C219 for every pruned row, uniqueness of the lag coefficients, determinant of the permuted covariance; ties as counterexample |
| C221 | `Model/Parce.fit`, `Model/ParceData.cfgOf` and `fit` | residuals on the same regressors are unique, the combined p-value and the largest F-correlation do not depend on the order of the regressors, then induction on the search; C219 for every row of the matrix; ties as counterexample |
| C222 | `Model/AdaptiveLasso.fitLasso`, `Model/ParceData.fit`, `Model/RcdData.fit`; path routine as an oracle that ignores the order of the rows (`Spec/Shuffle.IgnoresRows`) | uniqueness of least squares under permuted rows, then every statistic is a symmetric function of the rows; the kernel width only of the first 100 rows; counterexample with 101 rows |
| C223 | `Model/HighDimLasso.fitLasso`: both ways of estimating the matrix on rational data, regressions over the reals; `LassoLarsCV` as an oracle | it is the adaptive Lasso of C197 with a path of one vector; counting for the exceptions |
| C224 | `Model/HighDimLasso.fitLasso` | residuals under permuted rows are the permuted residuals, moments are symmetric; C222 for the matrix |
| C225 | `Model/ErrorData.table`: error columns, `hsic_test_gamma` for every pair | errors in other units are affine images of the errors, then C113, C114, C115; with C197, C222, C215 after fitting |
| C226 | `Model/CausalEffect` as for C33-C35 | the propagated values are the only solution of the intervened equations, and the equations keep their form; a linear prediction is affine in the intervention; concrete violations |
| C227 | `Model/LongData` as for C200 | each regression, residual and adaptive Lasso follows the columns (C219, C220), orders by uniqueness of the joint order; a panel with a tie as counterexample |
| C228 | `Model/Varma.fit`; VARMAX, LiNGAM and Lasso as oracles that follow the description, then `DirectLiNGAM` and the adaptive Lasso over the reals | the residual recursion, the transformations and the pruning regressions follow the description; C197, C215, C219 for the default parts; one variable, one MA lag as counterexample for the noise |
| C229 | `Model/Pairwise.fitOrder` over the reals; samples are exactly independent (`Spec/Independent`) | C143 and estimates of log cosh: power series for two coins (any effect), rational bounds for the 25 rows of the counterexample |
| C230 | `Model/Lim.inner`, `outer`, `fit`; the optimiser and the random numbers are oracles | induction over the penalties; after violation 0 the test for progress fails always, so the limit is reached |
| C231 | `Model/Hsic.test` over the reals; exact independence from `Spec/Independent` | the statistic is a quadratic form in the kernels (C116); the Gaussian kernel is expanded into a power series with positive coefficients, so the form vanishes only if all mixed moments agree; Lagrange interpolation turns moments into arbitrary functions |
| C232 | `Model/ResitData.fit` (RESIT as a function of the data over the reals), regressor as oracle; `Spec/NoiseModel` states the noise model | in a set containing the causes of its members, the residual of a variable without effects in the set is its centred error; it is independent of the other variables because they are functions of the other errors; by C231 its statistic is 0 and all others are positive |
| C233 | `Model/ParceData.fit` over the reals, HSIC branch | among remaining variables (which contain their causes) the residual of a variable without effects is its centred error; all its p-values are 1 by C231, Fisher's statistic is 0 and the p-value 1; for the others the statistic is positive; induction over the search |
| C234 | `Model/Parce`, `Model/Resit`, `Model/RcdData`, `Model/GroupRcdData`, `Model/Camuv` | the levels only enter the rejection test, so two runs of the bottom-up search agree until the stricter one stops; the extremes make all tests fail or pass, and the justification theorems C25, C28 leave no arrow; for RESIT four variables with explicit p-values |
| C235 | `Model/GroupRcdData` (Fisher's method over the real numbers with NaN and infinity, the two different comparisons of a NaN) | every p-value of every data set is unchanged, Fisher's statistic is a symmetric sum; coefficients by uniqueness of the least squares fit |
| C236 | `Model/GroupRcdData` | a constant column has constant residuals, so there is a NaN in every combined p-value that decides about an arrow or a confounded pair |
| C237 | `Model/Inputs` (constructors, `_check_X_list` with its effects on the object, `fit` as check, search, store) | case distinction over all numbers; induction over the list |
| C238 | `Model/Inputs`, `Model/Rcd` | the comparison with the limit is the only use of it; for infinity induction over the fuel; sets larger than the number of variables do not exist, so longer searches change nothing |
| C239 | `Model/RcdData`, `Model/Rcd`, `Model/Hsic` | the search with two variables computed in closed form (a second pass changes nothing, larger sets do not exist); the residual of the effect is the centred error, so its p-value is 1 (C231); the coefficient by the normal equations |
| C240 | `Model/KernelSearch` (on `Model/KernelMi`, `Model/Pairwise`) | a relation of columns (sign and rows) kept by the residuals and by the measure (C166) carries over to the whole search; linear independence is kept by the residuals, so no variance is zero; specification `KernelOrder` with the determinants of C166 |
| C241 | `Model/VarResult` (on `Model/Bootstrap`, `Model/Var`) | C16, C19 and C21 applied to the stored and to the expanded matrices; the expanded matrix is the unrolled graph (C66), which is acyclic if the instantaneous graph is |
| C242 | `Model/CamuvData` (on `Model/Camuv`, `Model/Hsic`) | the search with two variables is computed; the p-value of the error is 1 (C231), that of the reverse direction at most 1, with equality for exact independence only |
| C243 | `Model/CamuvData` (on `Model/Camuv`, `Model/Hsic`) | with sets of two variables only tests against one column are made, which C114 shows to ignore units; with a common factor or with permuted rows all tests agree (C114, C115) |
| C244 | `Model/ResitData` (on `Model/Resit`, `Model/Hsic`) | all statistics and p-values agree (C114, C115); with two columns no p-value is used; for the violation the kernel matrices of three coins are diagonalised, which gives the statistics in closed form |
| C245 | `Model/DirectData`, `Model/Paths` | the estimate is taken as the true model of the data with what it leaves over as errors, then C95 applies; with all edges kept the leftovers are uncorrelated because each is a regression residual; the difference by exact computation on four rows |
| C246 | `Model/MultiGroupData`, `Model/GroupBoot`, `Model/Paths` | C245 in each data set; the common order does not matter for the argument |
| C247 | `Model/GroupRcdData` | measure theory: the tail of the gamma distribution with integer shape by integration, the distribution of the product of uniform numbers by induction on their number, valid p-values by comparison with uniform ones (layer cake); the search by the fact that nothing changes as long as no pair of columns is found to be correlated, and the union bound over pairs |
| C248 | `Model/GroupRcdData` | the residual of the effect is the centred error, whose HSIC p-value is 1 in every data set, so Fisher's combination is 1; then the search over two variables and the matrix are evaluated symbolically (as for C239) |
| C249 | `Model/GroupCamuvData` | the p-value of every data set is invariant (as for C243), the combined one is a function of these, symmetric in the data sets |
| C250 | `Model/GroupCamuvData` | Fisher's combination is 1 if and only if all p-values are 1 (strictly decreasing tail), so the arguments of C242 apply to the combined p-value |
| C251 | `Model/GroupCamuvData`, `Model/CamuvData` | as long as no two columns are found dependent no set of variables has a candidate child, so nothing is reported; C247 for the combined p-value and the union bound over pairs |
| C252 | `Model/SimulatorGraph`: `train` from the raw arguments, with `check_array` | index tuples of arrays with two and three dimensions; C84 for the acyclicity of a VAR graph; case distinction over what is refused |
| C253 | `Model/CdgModels`: estimators as objects with a trained state in a store | reduction to the model of C46 and C85 if the objects differ; explicit store after both trainings otherwise |
| C254 | `Model/Pairwise` | every working column is a linear form of the row whose coefficients converge; averages of the two Lipschitz functions of the entropy converge by the strong law of large numbers, so do the penalties, and the strict minimum is eventually found in the sample; induction over the steps |
| C255 | `Model/AdaptiveLasso` | the criterion of the end of the path bounds that of the chosen point; without the predictor its residual sum of squares would be at least `R'` |
| C256 | `Model/AdaptiveLasso`, `Model/Pairwise` | the second moments of the forms are bounded below (compactness), so the regressions on all supersets of the true predictors converge together; by C255 the true predictors are eventually kept |
| C257 | `Model/Pairwise`, `Model/AdaptiveLasso` | the four entropies are computed for all combinations of two three-valued disturbances, `log cosh` at `√1.2`, `√2.4`, `√4.8` is bounded by power series; the score is negative, so C254 and C256 give the wrong order and its matrix |
| C258 | `Model/AdaptiveLasso`, `Model/DirectLingam` | a linear model in one order is one in all causal orders, of which there are finitely many; in each of them the regressions on the predictors left by the prior knowledge converge |
| C259 | `Model/TotalEffect`, `Model/Paths` | the disturbance of the source is uncorrelated with the variables before it, so the coefficient of the source is `cov(target, disturbance)/var(disturbance)`, which solves the equations of the total effect; these have one solution, depending continuously on the matrix |
| C260 | `Model/AdaptiveLasso` | the first vector on the path is 0 and any other costs at least log N; by Chebyshev's inequality the products with the other variables explain less than that, and averages close to their expectations keep the columns independent |
| C261 | `Model/AdaptiveLasso` | with the least squares coefficients as weights the Lasso vector with penalty λ costs at most 2mλ more than least squares, and a column k in use forces λ ≤ 2m‖w_k x_k‖²; so the path passes a vector with all true and no false predictors before the penalty is too small, and BIC prefers it; false coefficients are small by Chebyshev's inequality, true ones are kept as in C255; that Lasso paths exist is proved by walking down through the convex pieces of equal signs |
| C262 | `Model/Pairwise`, `Model/AdaptiveLasso` | the event that the sample has the strict order o is measurable (the penalties are measurable functions of the rows), so C254 gives its probability; C261 gives the edges |
| C263 | `Model/Pairwise`, `Model/AdaptiveLasso` | the search on data is a search with some scores, so C04 and C05 apply to it; the order is then a causal one on all data, and C258, C259 and C261 give matrix, total effects and edges; there are finitely many causal orders, so a change of the order between samples does not matter |
| C264 | `Model/Pairwise` | the second column is taken only if the score of the direction is negative; exchanging the columns changes its sign, so two disjoint measurable events have the same probability; two standard normal variables are invariant under reflections (characteristic functions), and units do not matter (C140) |

## Findings
Properties the code does not have. Each is proved (negation with a concrete witness or for all inputs) next to the
strongest version that does hold.

Graph utilities and bootstrap
* C12: `find_all_paths` does not report all cycles through the source or target.
* C20: with `min_causal_effect` the median is taken over all non-zero samples, not over the counted ones.
* C51, C35: distances from roots and optimal interventions test a row by its *sum*; cancelling coefficients look like a root.
* C33: `CausalEffect` treats coefficients below 1e-10 as absent when it checks acyclicity.
* C88, C52: the imputation bootstrap fails if a resample has an all-missing column, and does not check the number of matrices.

DirectLiNGAM
* C53: `measure='pwling_fast'` ignores prior knowledge for the order.
* C54, C57: mutual "no path" knowledge does not exclude indirect paths; requested paths need not exist.
* C96: "no path" statements that are true can exclude a true edge, because each is turned into an order of the two variables.
* C97: the kernel measure never uses soft "no path" knowledge.
* C98: on integer arrays residuals are truncated when written back, which can change the order.

Hidden-variable methods
* C27, C30: RCD and CAM-UV can return directed 3-cycles for inconsistent tests.
* C59, C91: bootstrap total effects are 0 for indirect effects of unrecorded ancestors, and for confounded sources in the multi-group version.
* C60: CAM-UV tries explanatory sets one smaller than requested.
* C61: BottomUpParceLiNGAM accepts all variables when every p-value is 0.
* C101: with correct tests and one hidden common cause RCD's default settings list a variable as an ancestor that has no effect at all (three variables suffice); without hidden causes this happens from `max_explanatory_num=3` on.
* C48: multi-group RCD with `fcorr` only looks at the last data set.

Time series
* C37, C62, C63, C68, C82: fits depend on earlier fits or bootstraps of the same object; a second VARMA fit raises.
* C38, C39: lagged total effects miss paths among lagged variables (VAR) or always use lag 1 (VARMA).
* C40: VARMA's omega drops an inverse factor. C67: `np.roll` wraps the end of the series to its start. C70: wrong adjustment column for lags from 1 on.
* C103: the VAR and VARMA bootstraps switch the information criterion off, so resamples are analysed with the maximal order. C105: the VARMA bootstrap raises for pure AR and pure MA models. C106: the VARMA pruning data wrap around like C67.
* C41, C72, C79: LongitudinalLiNGAM stores lags in reverse order for `n_lags >= 2`. C75: its bootstrap raises by default then. C77: `residuals_` is missing with prior knowledge.

Optimisation and simulation
* C43: a 4-cycle passes LiM's default tolerance; C80: wrong gradients for LiM laplace, mixed and poisson losses; C83: random start values may be returned.
* C44, C84: simulated data differ below discrete variables; time series simulation ignores changes in lagged columns.
* C46, C85: the data generator raises without adjustments or with extra columns, and ignores interventions on adjustments.
* C86, C87: OCT selects configurations with an undefined score and accepts a missing model.
* C109: changed coefficients drop the fitted intercept, so restating the fitted coefficients shifts the data.
* C85: exogenous values given for a categorical cause are accepted and ignored.
* C115, C117: the HSIC bandwidth looks at the first 100 rows only, so the test depends on the order of the rows and is NaN for a variable that varies only later; the p-value is always NaN for four or five rows.
* C120, C121, C122: the order of `HighDimDirectLiNGAM` depends on the units (and becomes the column order for large values) and, since the data are not centred, on the origin of measurement; the last ordered variable is tested against its own residual and then dropped as a possible parent, so joint causes are never conditioned on together and the true order is missed; only the first set of possible parents is tried because `_calc_taus` returns inside its loop.
* C124: `make_dot` takes the lower triangle of the NaN pattern, so an unknown direction marked only above the diagonal disappears.
* C127, C128, C129: `make_dot_highlight` draws an isolated target twice, always raises for NaN entries although it documents double-headed arrows for them, draws coefficients equal to `lower_limit` that `make_dot` leaves out, and never emphasises the nodes of a path because it looks up numbers in a list of names.
* C130: `remove_effect` writes residuals back into the given array, so for integer arrays they are truncated and stay correlated with the removed features.
* C133: the constant -0.35 of `log_p_super_gaussian` is not a normalising constant (the integral is about 0.997).
* C135: `evaluate_model_fit` prints coefficients with six decimals, so entries between 1e-8 and 5e-7 become fixed zeros.
* C137: LiM's Poisson term is overwritten for every parent, so only the last one counts, and it is the negative log-likelihood added with the sign of a log-likelihood, so better fits lower the score.
* C142: with ties in DirectLiNGAM's statistic the first column is declared exogenous, so exchanging the columns of symmetric data exchanges cause and effect.
* C146: `f_correlation` drops eigenvalues below n*kappa/100, which is at least 2 from 100000 observations on; a sample in which one of two values occurs once has only smaller ones, so two such samples raise in `eigsh` and one such sample gives 0 with every other sample.
* C148: `f_correlation` raises for arrays with two or more columns, so CAM-UV with independence='fcorr' fails as soon as it tests a set of three variables.
* C150: with prior knowledge and at least two candidates, `_find_exo_vec` regresses each candidate on the other candidates instead of all remaining variables. With 0 → 1, 2 unrelated and the true statement "2 has no path to 1" the result contains 1 → 0 instead of 0 → 1, although every test is right; with 0 → 1, 0 → 2 and the true statement "0 has a path to 1" nothing is resolved at all.
* C152: the bootstrap of BottomUpParceLiNGAM loops over the order with the unresolved variables as one item, so the pairs inside it are never visited and keep the initial 0, whereas `estimate_total_effect2` returns NaN for them: an undetermined effect is counted as "no effect".
* C154: VARLiNGAM estimates the VAR part with trend="n" (no intercept) and does not centre the data, so the result depends on the origin of measurement: for every one-variable series whose lag coefficient is not exactly 1, moving the origin by one unit in one of the two directions changes the coefficient. VARMALiNGAM uses trend="c".
* C155: under ideal conditions LongitudinalLiNGAM reports exactly the true matrices, but with the lags in reverse: for two or more lags an entry is wrong whenever the true effects of lag k and lag n_lags + 1 - k differ.
* C158: RESIT with right tests still reports wrong edges. `_remove_edges` compares the residual only with the predictors of the regression, not with all earlier variables (as the published algorithm does), and never tests the last one left. A variable with at least two predecessors always loses one of them even if all are causes; a variable without causes that is not first always gets a false edge; for x1 = x0 + e1 and an independent x2 the only true edge is missing and two false ones are reported.
* C160: `LongitudinalBootstrapResult.get_total_causal_effects` has the same flaw as C20: with a threshold the reported effect is the median over all samples with a nonzero effect, while the probability counts only those above the threshold.
* C162: `VARLiNGAM.get_error_independence_p_values` with pruning (the default) does not test the errors of the reported equations: it applies the pruned B0 to the residuals of the unpruned VAR. The difference is the effect of the past that the pruned lag matrices and (I - B0) M disagree about. `LongitudinalLiNGAM` tests columns of NaN for the times 1, ..., n_lags - 1 and raises AttributeError after a fit with prior knowledge.
* C163: `get_error_independence_p_values` of the multi-group models accepts more data sets than were fitted; the tables of the extra ones are all zero, which reads as "every pair of errors is dependent".
* C165: `MultiGroupRCD.estimate_total_effect` returns an empty list for a source with a latent confounder (the early return is inside the loop over the data sets), while RCD returns NaN and the documentation promises a value per data set.
* C166: the kernel measure of DirectLiNGAM does not centre the kernel matrices (as kernel ICA does). It is strictly positive for every pair of samples, even if one variable is constant.
* C167: `MDLiNA.fit` documents `scale` with shape (1, n_features_latent) but reads a second row: the documented shape raises IndexError. With the block-diagonal array of the tutorial and three domains, all factors of the third domain are multiplied by zero.
* C168: the renumbering reads exactly two domains: one domain raises IndexError, a third one is ignored. The branch for tables without zeros is dead (`len(np.where(...)) == 0` is never true), so columns with a zero get 0.01 on top; the result is still a one-to-one matching.
* C169: the alternating loop of `MDLiNA.fit` has no limit of rounds other than the length 10000 of an array: an objective that keeps rising, or NaN, ends in an IndexError.
* C170: `_estimate_MDLiNA_H` ends with `h_est = h_new`: the solution of the last pass replaces the best one, even if the pass was rejected.
* C171: the matrix `D` of `_estimate_MDLiNA_H` ignores the standardisation of the residuals (and has the wrong sign and order of factors in its first terms): in the first round it is nowhere the gradient of the loss.
* C172: the doubled variables of `_estimate_MDLiNA_H` are optimised by BFGS without bounds, while the penalty `lambda1 * h.sum()` is an L1 norm only for nonnegative halves: the objective is unbounded below for every positive `lambda1`. `lambda2` is not used at all.
* C173: `loss_type` values other than "laplace" cannot be fitted by MDLiNA: "l2" subtracts arrays of different shapes, "logistic" and "poisson" are unknown to `_estimate_MDLiNA_H`.
* C174: `visualize_nonlinear_causal_effect` finds the parents of the cause with `m[cause_index, :] == 1`: coefficients of a linear model are never exactly 1, so nothing is adjusted for and confounding is plotted as a causal effect.
* C175: a `BootstrapResult` without `resampled_indices` is cut to its first sample by `zip`; the labels `X.index` are used as row numbers in `iloc`.
* C176: `percentile` must be a list although a tuple is documented; nested lists have no `shape`; `check_array` rejects the NaN entries of RCD, CAM-UV and BottomUpParceLiNGAM; repeated positions or percentiles make `ax.plot` raise.
* C100, C178: with right tests and hidden causes RCD's default `max_explanatory_num=2` can return a directed edge from a variable without any effect and a NaN for a variable that has no hidden cause above it; with 1 neither is possible.
* C181: with right tests and one hidden cause RCD's default `max_explanatory_num=2` can record three variables as ancestors of each other in a circle (only pairs are checked for contradictions).
* C184: with right tests CAM-UV reports an indirect cause as a parent when the edge in between is hidden behind an unobserved common cause (0 → 1 → 2, hidden cause of 1 and 2: entry (2, 0) is 1, entry (2, 1) is NaN).
* C183: without hidden causes and with no cancelling total effect CAM-UV can still miss parents and mark a pair as confounded, if the direct effect of a variable cancels its effect through another one that is not yet recorded.
* C186: MultiGroupRCD with `independence='fcorr'` compares only the last data set's F-correlation with the threshold; a cause that is visible only in an earlier data set is lost and its entry becomes NaN.
* C187–C189: MLHSICR takes `width(y) - sum c_j * width(z_j)` as the kernel width of the residual (it treats widths like the variables themselves). The objective therefore depends on the sign of the variables, is not the statistic of the HSIC test, and is NaN on a hyperplane of coefficients.
* C190: the moving average matrices of VARMALiNGAM are `Omega_k (I - Psi_0)` instead of `Omega_k` even when everything else is exact (same cause as C40).
* C191: `_calc_residuals` starts from `np.random.normal` values and carries their error along; for `|theta| >= 1` it never fades.
* C193: ICA-LiNGAM sorts the entries of `B` by absolute value, so the result depends on units: any order at all can be obtained by changing units when the unmixing matrix has no zero entry.
* C196: `MultiGroupRCD` shares the false ancestors of RCD with hidden causes at the default `max_explanatory_num = 2`.
* C198: a variable that is an exact linear function of its predecessors loses all edges: the estimated error variance is 0, the criterion of `LassoLarsIC` is NaN along the whole path and the first (zero) vector is taken (exact arithmetic).
* C205: `CausalBasedSimulator`: `changing_exog` values given as a list pass the check (which works on a converted copy) and then fail at `.ravel()`; `run` before `train` raises AttributeError, since `_train_result` is only created by `train`; the time series handler adds strings to column labels, so `pd.DataFrame(array)` raises TypeError; labels 1 and "1" become the same name and the second column is never read.
* C206: `extract_ancestors`: a list of rows raises AttributeError (`X.shape` is read before `check_array`); the docstring gives `MLHSICR` default False, the signature True (RCD: False); `max_explanatory_num <= 0` is accepted and treated as 1, where RCD raises ValueError.
* C207: `print_causal_directions` and `print_dagc`: `if labels:` raises ValueError for a numpy array or the columns of a data frame, although `labels` is documented as array-like.
* C208: integer data: `np.zeros_like(X)` in `RCD` (also `extract_ancestors`, `MultiGroupRCD`), `copy.deepcopy(X)` in `CAMUV` (also `MultiGroupCAMUV`) and `np.copy(X)` in `MultiGroupDirectLiNGAM` keep the integer type, so the residuals assigned to these arrays are cut off to integers. RCD and CAMUV then report hidden common causes that are not there.
* C209: `CausalEffect` reads its causal model at the first successful call only. After the LiNGAM object was fitted again the old results are used; after an array was changed in place the new coefficients are used in the old order, without the check for cycles.
* C210: `CausalDataGenerator.generate` ends with `generated.loc[X.index, ...]`: if row labels repeat, rows are multiplied. `_check_data_dict` converts interventions to arrays only for its checks, so a `Series` is aligned by label and may silently become NaN.
* C211: `bootstrap_with_imputation` accepts `n_repeats=1`, but its default causal discovery refuses fewer than two data sets.
* C212: `RESIT._remove_edges` drops edges greedily in the order of the columns among the predecessors. With right tests on `x0 -> x2 <- x1` it drops whichever of the two true edges comes first.
* C213: `RCD._extract_ancestors` records ancestors while it goes through the subsets of columns. With right tests and a hidden common cause, `ancestors_list_` depends on the order of the columns (default `max_explanatory_num`).
* C214: `CAMUV._find_parents` likewise: with right tests and a hidden common cause, an edge is found or replaced by NaN depending on the order of the columns.
* C215: `MultiGroupDirectLiNGAM` resolves ties by the position of the column, like `DirectLiNGAM` (C142).
* C216: `DirectLiNGAM.fit` and `MultiGroupDirectLiNGAM.fit` store the order before the regressions: when `LassoLarsIC` raises (rows not more than columns), the object combines the new order with the matrix of an earlier fit, or with matrices for some of the data sets only.
* C216: `BottomUpParceLiNGAM.fit` resets `_adjacency_matrices`, which it does not use, instead of `_adjacency_matrix`: after an exception `adjacency_matrix_` is that of the earlier fit and `causal_order_` is `None`. `ICALiNGAM.fit` on one column has the same effect.
* C217: `ICALiNGAM` resolves variables that its pruned matrix leaves unordered by the position of their columns. Swapping two columns can reverse the order of two variables, and the regressions that follow use other predictors.
* C218: `CausalBasedSimulator.train` on a time series multiplies `is_discrete` by the number of times. This repeats a list, but it turns a numpy array of flags into the column numbers 0 and `n_lags + 1`: other variables than the flagged ones are taken for discrete.
* C220: `VARLiNGAM` follows the order of the columns when the penalties of the residuals are tied (`C220_violated`), as `DirectLiNGAM` does.
* C221: `BottomUpParceLiNGAM` takes the first of several tied candidates for the sink, so the result follows the order of the columns (`C221_violated`).
* C222: `hsic_test_gamma` takes the kernel width from the first 100 rows, so with more rows the result of `RCD` depends on the order in which the observations are listed (`C222_violated`).
* C223: with no more rows than columns `HighDimDirectLiNGAM.fit` raises for fewer than five rows (five folds), after the order has been found.
* C225: with more than 100 rows a p-value of `get_error_independence_p_values` can be NaN or a number, depending on which row comes last (`C225_rows_violated`).
* C70: with a nonzero coefficient of the last MA lag, `estimate_total_effect` of VARMALiNGAM with `from_lag` at least 1 regresses on a column of zeros (`C70_zero_column`).
* C226: the absolute tolerance `1e-10` of `_check_init_params` makes the reported effects depend on the units (`C226_effects_units_violated`: 0.1 in one unit, 0 in another), and the signed row sums of line 226 make the optimal intervention depend on them (`C226_optimal_units_violated`).
* C227: with ties in the dependence measure LongitudinalLiNGAM puts the first column first, whichever variable it holds (`C227_violated`).
* C228: with given MA coefficients `_calc_residuals` starts with standard normal numbers whatever the unit of the series, so that the residuals in another unit are not the converted residuals (`C228_noise_violated`).
* C229: the default measure can put the effect first even when the error is exactly independent of the cause and the reverse model has no independent error (`C229_violated`, 25 rows), because the mean of log cosh of cause and error happens to lie close to its Gaussian value.
* C230: `h <= h_tol and h != 0` in lim.py rejects an exactly acyclic solution; the search goes on to the limit of the penalty and may return a cycle (`C230_violated`).
* C234: raising `alpha` of RESIT can remove an arrow: the removal of an earlier predictor changes the tests of the later ones.
* C236: a variable held constant in one data set (for example by design of an experiment) makes every combined p-value NaN; MultiGroupRCD then reports it as unconnected in all data sets without a warning, although the search for ancestors counts the NaN as correlated.
* C237: NaN is accepted for every level and threshold (`nan < 0` is false), and a threshold of 0 although the message says it must be greater than 0.
* C238: RCD(max_explanatory_num=inf) is accepted and `fit` never ends.
* C240: with measure='kernel' a constant column raises `LinAlgError` (the residual on it is NaN), with the default measure it is accepted.
* C242: `_get_child` compares p-values with `>` and keeps the first; if both residuals are exactly independent, CAM-UV reports the arrow into the column with the smaller number.
* C244: HSIC uses one kernel width for all predictors together, so RESIT with three or more columns depends on the relative units of the columns (data should be standardised before).
* C245: `estimate_total_effect` and `calculate_total_effect` applied to the same fitted model may differ once an edge is pruned or forbidden; they agree on complete estimates.
* C246: `MultiGroupDirectLiNGAM.estimate_total_effect` does not compare the length of the list with that of the fit; surplus data sets or matrices are dropped without a message.
* C247: the combined tests of `MultiGroupRCD` keep their level only if the data sets are independent; giving a data set twice exceeds it.
* C253: `CausalDataGenerator.fit` trains the estimator objects passed by the user without cloning them. Passing one object as `model_cause` and `model_effect` makes `generate()` raise `ValueError`; using it again for another generator silently changes the first one.
* C253: `visualize_nonlinear_causal_effect` checks `predict_proba` only if the estimator is a classifier, so that other estimators for a categorical effect fail later with `AttributeError`.
* C257: DirectLiNGAM with the default measure is not consistent for all linear non-Gaussian models: with independent disturbances on -1, 0, 1 with probabilities 5/24, 14/24, 5/24 the model `x1 = x0 + e` is found in the wrong direction on all large samples.
