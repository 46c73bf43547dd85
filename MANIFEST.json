{
 "claims": [
  {
   "property": "C01",
   "status": "proved",
   "theorems": [
    "CatLearn.Props.C01_kfold_partition",
    "CatLearn.Props.C01_kfold_error_iff",
    "CatLearn.Props.C01_kfold_no_targets"
   ],
   "note": "C01_kfold_partition: C01. For every data set with as many targets as rows, every `nsplit ≥ 1` and every outcome of the shuffle, `k_fold` succeeds with exactly `nsplit` folds, in each fold there are as many targets as rows, fold sizes differ by at most one, and pairing the rows with the targets of the same fold gives back exactly the input (row, target) pairs, each once. | C01_kfold_error_iff: C01, error branch: `k_fold` raises exactly when the numbers of rows and targets differ or no fold is requested. | C01_kfold_no_targets: C01 without targets: the folds are again a balanced partition of the rows …"
  },
  {
   "property": "C02",
   "status": "proved",
   "theorems": [
    "CatLearn.Props.C02_kfold_fix_size",
    "CatLearn.Props.C02_kfold_fix_size_refused"
   ],
   "note": "C02_kfold_fix_size: C02. With `fix_size = s`, whenever `nsplit * s` rows are available, every shuffle gives `nsplit` folds of exactly `s` rows and `s` targets; the (row, target) pairs of the folds together are pairs of the input, none used more often than it occurs there. | C02_kfold_fix_size_refused: C02, error branch: with fewer than `nsplit * s` rows the request is refused."
  },
  {
   "property": "C03",
   "status": "proved",
   "theorems": [
    "CatLearn.Props.C03_split_index",
    "CatLearn.Props.C03_split_index_max",
    "CatLearn.Props.C03_split_index_silent",
    "CatLearn.Props.C03_split_index_refused"
   ],
   "note": "C03_split_index: C03. Whatever the shuffles do, if half of the data set is not smaller than `min_split ≥ 1`, `split_index` returns (and writes) a hierarchy over all the given indices: `2^l` subsets on every level `l = 1 … L`, each level a partition of the indices in parts whose sizes differ by at most one and are at least `min_split`, each level refining the previous, and `L` as large as possible. | C03_split_index_max: C03 with `max_split`: the hierarchy is over exactly `max_split` of the given indices. | C03_split_index_silent: C03, the remaining inputs: with `n/2 < min_split < n` every assertion passes but `split_index` neither writes nor returns a split. | C03_split_index_refused: C03, refused inputs: at most `min_split` indices."
  },
  {
   "property": "C04",
   "status": "proved",
   "theorems": [
    "CatLearn.Props.C04_split_predict"
   ],
   "note": "C04_split_predict: C04. On any correct hierarchy over distinct indices, `split_predict` calls the prediction function exactly once for every ordered pair of different subsets of the same level and for nothing else, and the train and test subsets of a call never share an index."
  },
  {
   "property": "C05",
   "status": "partial",
   "theorems": [
    "CatLearn.Props.C05_fetch_partial",
    "CatLearn.Props.C05_fetch_missing",
    "CatLearn.Props.C05_fetch_violated"
   ],
   "note": "C05_fetch_partial: C05 (partial). In a table with distinct ids, fetching any list of distinct stored ids returns exactly the rows with these ids, each once, *except* when the number of ids is a multiple of 999 above 999 (see `C05_fetch_violated`). The rows come in table order per chunk, not in request order. | C05_fetch_violated: C05 is violated: when the number of requested ids is a multiple of 999 above 999, the last chunk is empty and the fetch raises `ValueError`, although every id is present in the table."
  },
  {
   "property": "C06",
   "status": "partial",
   "theorems": [
    "CatLearn.Props.C06_initial",
    "CatLearn.Props.C06_population_well_formed",
    "CatLearn.Props.C06_generation_total",
    "CatLearn.Props.C06_population_size",
    "CatLearn.Props.C06_population_size_dedup",
    "CatLearn.Props.C06_population_size_violated"
   ],
   "note": "C06_population_size_violated: C06 is violated when an accuracy is given: individuals with the same rounded fitness are removed and not replaced, so the population can be smaller than `population_size` (see also C72)."
  },
  {
   "property": "C07",
   "status": "partial",
   "theorems": [
    "CatLearn.Props.C07_elitism",
    "CatLearn.Props.C07_survivors_fittest",
    "CatLearn.Props.C07_dedup_distinct",
    "CatLearn.Props.C07_elitism_dedup_partial",
    "CatLearn.Props.C07_elitism_dedup_violated"
   ],
   "note": "C07_elitism_dedup_partial: … and on such a population the best fitness does not decrease (so it never decreases from the first generation on). | C07_elitism_dedup_violated: C07 is violated in the first generation when an accuracy is given: of two individuals of equal rounded fitness the first is kept even if it is worse, so the best fitness can decrease."
  },
  {
   "property": "C08",
   "status": "partial",
   "theorems": [
    "CatLearn.Props.C08_selection_member",
    "CatLearn.Props.C08_selection_favours_fitter_violated"
   ],
   "note": "C08_selection_favours_fitter_violated: C08 is violated, for every population: of two individuals the *less* fit one is always the more likely to be selected by a call of `_selection`. All the shuffles and all the draws on a grid of `M` values in [0, 1) are equally likely outcomes (`M = 2 ^ 53` for `random.random`), and strictly fewer of them select the fitter individual."
  },
  {
   "property": "C09",
   "status": "partial",
   "theorems": [
    "CatLearn.Props.C09_random_permutation",
    "CatLearn.Props.C09_probability_include",
    "CatLearn.Props.C09_probability_remove_nonempty",
    "CatLearn.Props.C09_probability_remove_partial",
    "CatLearn.Props.C09_probability_remove_violated"
   ],
   "note": "C09_probability_remove_partial: C09 (partial). `probability_remove` only switches genes off, except when the draws removed every feature: then the child has the single feature `fallback`, which may be one the parent did not have (see `C09_probability_remove_violated`). | C09_probability_remove_violated: C09 is violated by `probability_remove`: with draws in [0,1) it can switch on a feature that the parent does not have."
  },
  {
   "property": "C10",
   "status": "proved",
   "theorems": [
    "CatLearn.Props.C10_cut_and_splice"
   ],
   "note": "C10_cut_and_splice: C10. Every gene of a child is the gene at the same position of one of its parents: of the first before the cut and of the second from the cut on; the length is that of the parents."
  },
  {
   "property": "C11",
   "status": "proved",
   "theorems": [
    "CatLearn.Props.C11_parallel_fitness"
   ],
   "note": "C11_parallel_fitness: C11. For every population, every fitness function, every order in which the individuals are queued and every order in which the answers arrive, the parallel evaluation returns the same list as the serial one."
  },
  {
   "property": "C12",
   "status": "partial",
   "theorems": [
    "CatLearn.Props.C12_locate_pareto",
    "CatLearn.Props.C12_pareto_rank_partial",
    "CatLearn.Props.C12_pareto_rank_violated"
   ],
   "note": "C12_pareto_rank_partial: C12 (partial: what holds for the individuals whose fitness did not fail). For every fitness matrix whose rows are either all above `-inf` or all `-inf` (a failed individual), the ranking ends and gives one rank per row such that, among the rows that did not fail, an undominated row and only such a row gets rank -1; a row that strictly dominates another has the strictly better (larger) rank; and a row of rank `-k`, `k ≥ 2`, is dominated by a row of rank `-(k-1)` (so the ranks are the Pareto fronts). Failed rows keep rank 0. | C12_pareto_rank_violated: C12 is violated by failed individuals: one whose fitness is `-inf` in every objective is ranked above (0) an individual that strictly dominates it (-1), so it survives in preference to it."
  },
  {
   "property": "C13",
   "status": "proved",
   "theorems": [
    "CatLearn.Props.C13_no_progress",
    "CatLearn.Props.C13_stagnation"
   ],
   "note": "C13_no_progress: C13. For every history of best fitness values, the `t`-th call of `no_progress` reports convergence exactly when more than `repeat` generations have been seen and none of the last `repeat + 1` of them set a new record. | C13_stagnation: C13, `stagnation`: the `t`-th call reports convergence exactly when the last `repeat + 2` calls (this one and the `repeat + 1` before it) all saw the same smallest and largest fitness."
  },
  {
   "property": "C14",
   "status": "proved",
   "theorems": [
    "CatLearn.Props.C14_standardize_affine",
    "CatLearn.Props.C14_standardize_stats",
    "CatLearn.Props.C14_standardize_stats_global"
   ],
   "note": "C14_standardize_affine: C14, one affine map: whatever is supplied or computed, `standardize` maps training and test columns by the same `x ↦ (x - mean)/std` with a non-zero divisor, and `x*std + mean` recovers the data. | C14_standardize_stats: C14, training statistics: with nothing supplied and local scaling, every scaled training column has sum 0 and mean square 1, or is all zero if it was constant. | C14_standardize_stats_global: C14, global scaling (`local=False` with a test matrix): the same holds for training and test data taken together."
  },
  {
   "property": "C15",
   "status": "proved",
   "theorems": [
    "CatLearn.Props.C15_normalize",
    "CatLearn.Props.C15_normalize_range",
    "CatLearn.Props.C15_min_max",
    "CatLearn.Props.C15_min_max_range"
   ],
   "note": "C15_normalize: C15, `normalize` with nothing supplied: one increasing affine map per column for training and test data, invertible with the returned parameters. | C15_normalize_range: C15, `normalize` locally: scaled training columns have sum 0 and lie in [-1, 1]. | C15_min_max: C15, `min_max`: one increasing affine map per column for training and test data, invertible with the returned parameters. | C15_min_max_range: C15, range of `min_max`: training data lands in [0,1] (locally or globally scaled); locally, a column that is not constant attains 0 and 1, and a constant one becomes 0."
  },
  {
   "property": "C16",
   "status": "proved",
   "theorems": [
    "CatLearn.Props.C16_unit_length"
   ],
   "note": "C16_unit_length: C16. `unit_length` turns every row that is not all zero into a row of Euclidean norm 1, and leaves all-zero rows unchanged; the row keeps its direction."
  },
  {
   "property": "C17",
   "status": "partial",
   "theorems": [
    "CatLearn.Props.C17_target_center",
    "CatLearn.Props.C17_target_scaling_partial",
    "CatLearn.Props.C17_target_scaling_violated"
   ],
   "note": "C17_target_scaling_partial: C17 (partial). `target_standardize` and `target_normalize` are invertible when the targets are not all equal. | C17_target_scaling_violated: C17 is violated for all constant target lists: every scaled target is nan."
  },
  {
   "property": "C18",
   "status": "proved",
   "theorems": [
    "CatLearn.Props.C18_clean_infinite",
    "CatLearn.Props.C18_clean_infinite_rejects"
   ],
   "note": "C18_clean_infinite: C18. `clean_infinite` (default, without imputation): the training rows whose target is not finite are dropped together with the target; of the rest, exactly the columns that are finite in every row, or that are listed in `mask`, are kept, in order; train, test and labels are restricted to those columns alike; and without a mask every returned training entry is finite. | C18_clean_infinite_rejects: C18: a test matrix of another width, or another number of labels than columns, is rejected."
  },
  {
   "property": "C19",
   "status": "partial",
   "theorems": [
    "CatLearn.Props.C19_clean_variance_partial",
    "CatLearn.Props.C19_clean_variance_violated"
   ],
   "note": "C19_clean_variance_partial: C19 (partial). `clean_variance` returns a column selection that is applied to train, test and labels alike. Every constant column is removed; every column of numbers whose variance exceeds `(1.1e-8)^2` is kept; and cleaning the result again changes nothing. | C19_clean_variance_violated: C19 is violated: a column that is not constant, here `0, 1e-9`, is removed."
  },
  {
   "property": "C20",
   "status": "partial",
   "theorems": [
    "CatLearn.Props.C20_remove_outliers_partial",
    "CatLearn.Props.C20_lengths",
    "CatLearn.Props.C20_remove_outliers_violated"
   ],
   "note": "C20_remove_outliers_partial: C20 (partial). With a median `med` of the targets and `mad = con *` a median of the absolute deviations, `remove_outliers` keeps exactly the (row, target) pairs with `target < med + mad` (constraint 'high' or None) and `target > med - mad` (constraint 'low' or None), in order and still paired. A target equal to the median is kept iff `mad > 0`. | C20_remove_outliers_violated: C20 is violated: when all targets are equal (so every one of them is the median) everything is removed, whatever `con` and `dev` are."
  },
  {
   "property": "C21",
   "status": "proved",
   "theorems": [
    "CatLearn.Props.C21_order_2",
    "CatLearn.Props.C21_no_columns",
    "CatLearn.Props.C21_order_2ab",
    "CatLearn.Props.C21_ablog",
    "CatLearn.Props.C21_number_of_columns"
   ],
   "note": "C21_order_2: C21: products. There is an enumeration of all pairs `f1 ≤ f2 < m`, each once, such that the k-th column is the product of the two columns, and the k-th label the combination of the two labels, of the k-th pair. | C21_no_columns: C21: a matrix without columns is refused by the products and the ratios (ZeroDivisionError), not by the others. | C21_order_2ab: C21: products of powers. | C21_ablog: C21: combinations of logarithms. Column and label k belong to the same pair `(f1, f2)`; the column is `a log(x1 + |min x1| + 1) + b log(x2 + |min x2| + 1)`. | C21_number_of_columns: C21: the number of columns is `m (m + 1) / 2`."
  },
  {
   "property": "C22",
   "status": "partial",
   "theorems": [
    "CatLearn.Props.C22_ratio_labels_partial",
    "CatLearn.Props.C22_ratio_labels_violated"
   ],
   "note": "C22_ratio_labels_partial: C22 (partial): `get_div_order_2` computes the ratio of every ordered pair of different features exactly once, followed by `m` columns of zeros; the labels (equally many) name every ordered pair including a feature with itself. | C22_ratio_labels_violated: C22 is violated for every number `m ≥ 1` of features and all their values: the last label names the ratio of the last feature with itself, the last column is zero."
  },
  {
   "property": "C23",
   "status": "proved",
   "theorems": [
    "CatLearn.Props.C23_monomials"
   ],
   "note": "C23_monomials: C23. For different symbols, `generate_positive_features(p, N)` returns every product of at most `N` symbols (repetition allowed) exactly once, and `1` unless excluded."
  },
  {
   "property": "C24",
   "status": "proved",
   "theorems": [
    "CatLearn.Props.C24_greedy_partition",
    "CatLearn.Props.C24_importance_partition",
    "CatLearn.Props.C24_greedy_round",
    "CatLearn.Props.C24_importance_round"
   ],
   "note": "C24_greedy_partition: C24, greedy elimination: the run ends without error; eliminated and surviving features are together all features, each once; between 1 and `step` features survive; `step` features are reported per round. | C24_importance_partition: C24, the same for importance elimination. | C24_greedy_round: C24, each round of greedy elimination: in whatever state the search is after `n` rounds, the next round removes `step` of the surviving features, reports each with the mean over the folds of the error made without it, and no remaining feature has a lower mean error. | C24_importance_round: C24, each round of importance elimination: the reported score of a removed feature is the mean over the folds of the error after perturbing it, and no remaining feature has a lower one."
  },
  {
   "property": "C25",
   "status": "proved",
   "theorems": [
    "CatLearn.Props.C25_resume"
   ],
   "note": "C25_resume: C25. However often a greedy elimination is killed, at whatever moments outside the writing of the save file, the restarted search returns the same (feature, score) list as the uninterrupted one, although each restarted run would draw other folds."
  },
  {
   "property": "C26",
   "status": "partial",
   "theorems": [
    "CatLearn.Props.C26_scores_schedule_partial",
    "CatLearn.Props.C26_meta_schedule_violated"
   ],
   "note": "C26_scores_schedule_partial: C26 (partial): for every order in which the workers finish, the row of scores equals the serial one. | C26_meta_schedule_violated: C26 is violated for the metadata: it is collected in the order in which the workers finish."
  },
  {
   "property": "C27",
   "status": "partial",
   "theorems": [
    "CatLearn.Props.C27_screen_partial",
    "CatLearn.Props.C27_random_check_partial",
    "CatLearn.Props.C27_requested_correlation_violated"
   ],
   "note": "C27_screen_partial: C27 (partial: the correlation used is not the requested one, see below). Screening returns all features, each once; every feature is at least as strongly correlated with the target as every later one, measured by the coefficient `used`, which is Spearman's when 'pearson' was requested and Pearson's otherwise, and 0 for a constant feature; without random features the suggested size is the number of data. | C27_random_check_partial: C27, random features (partial, same reason): with `random_check` no random feature is among the first `size` features, and each of these is at least as strongly correlated as every random feature. | C27_requested_correlation_violated: C27 is violated: asked for Pearson's coefficient, the screening puts a feature first whose Pearson coefficient is the smaller one."
  },
  {
   "property": "C28",
   "status": "proved",
   "theorems": [
    "CatLearn.Props.C28_iterative_screen",
    "CatLearn.Props.C28_iterative_screen_random",
    "CatLearn.Props.C28_rejects",
    "CatLearn.Props.C28_step_zero_raises"
   ],
   "note": "C28_iterative_screen: C28, without random features: for every matrix, target, correlation and regression with more than `2 * size` features and `0 < step < size`, iterative screening ends after at most `size` rounds; it returns all features, each once, and accepts exactly `size` of them. | C28_iterative_screen_random: C28, with random features: the search ends, returns all real features, each once, and accepts at most `size` of them. | C28_rejects: C28, too few features or too large a step: an AssertionError, not a wrong answer. | C28_step_zero_raises: C28, a step of 0: the call ends with an exception (NameError), it does not loop forever."
  },
  {
   "property": "C29",
   "status": "proved",
   "theorems": [
    "CatLearn.Props.C29_feature_shuffle",
    "CatLearn.Props.C29_feature_invariance",
    "CatLearn.Props.C29_feature_randomize",
    "CatLearn.Props.C29_units",
    "CatLearn.Props.C29_constant"
   ],
   "note": "C29_feature_shuffle: C29: shuffling a feature leaves the other columns alone and keeps the values of the shuffled column. | C29_feature_invariance: C29: making a feature invariant leaves the other columns alone and gives the feature one and the same value in all training and test rows. | C29_feature_randomize: C29: making a feature random leaves the other columns alone. | C29_units: C29: perturbing a feature and changing its units (`a x + b`, `a` not negative) commute, so the perturbed values do not depend on the units: for an invariant feature, for a random one with the same draws, and for a shuffled one with the same rearrangement. | C29_constant: C29: an invariant feature that did not vary keeps its value."
  },
  {
   "property": "C30",
   "status": "partial",
   "theorems": [
    "CatLearn.Props.C30_one_component_partial",
    "CatLearn.Props.C30_distinct_components_violated"
   ],
   "note": "C30_one_component_partial: C30 (partial): asking for one component projects on the leading singular vector. | C30_distinct_components_violated: C30 is violated for every data set and every number of components above 1: the leading vector is used twice and the last requested one is missing."
  },
  {
   "property": "C31",
   "status": "proved",
   "theorems": [
    "CatLearn.Props.C31_partition",
    "CatLearn.Props.C31_default_subset",
    "CatLearn.Props.C31_acquire",
    "CatLearn.Props.C31_emulates_acquire"
   ],
   "note": "C31_partition: C31. For every data set, valid initial subset, batch size and number of iterations, and every surrogate model proposing existing candidates: the emulation ends without error, and in every iteration training and candidate indices are disjoint and together all rows; the acquired points are the first `batch` proposals, all of them candidates, none twice; and the training set of each iteration is the initial subset plus everything acquired before. | C31_default_subset: C31 for the default initial subset, the first `max(batch, 2)` rows, if there are so many. | C31_acquire: C31: `acquire` returns distinct rows of the unlabelled data, at most `batch_size` of them: the first the model proposes, all it proposes if these are fewer, and the score of the model. | C31_emulates_acquire: C31: in an emulation, the rows acquired in each iteration are the rows `acquire` proposes for the same training data and candidates."
  },
  {
   "property": "C32",
   "status": "partial",
   "theorems": [
    "CatLearn.Props.C32_independent_default_partial",
    "CatLearn.Props.C32_shared_subset_violated",
    "CatLearn.Props.C32_starts_grown_violated"
   ],
   "note": "C32_independent_default_partial: C32 (partial): when no initial subset is given, every member of a serial ensemble is the run it would be on its own. | C32_shared_subset_violated: C32 is violated: given an initial subset, the second member of a serial ensemble does not start from it: with four rows and initial subset [0, 1] the second member has nothing left to test. | C32_starts_grown_violated: C32 is violated in general: every member after the first starts from the list its predecessor has grown."
  },
  {
   "property": "C33",
   "status": "partial",
   "theorems": [
    "CatLearn.Props.C33_all_results_partial",
    "CatLearn.Props.C33_order_violated"
   ],
   "note": "C33_all_results_partial: C33 (partial): for every order of arrival the parallel ensemble returns the results of all members, each computed independently from the initial subset. | C33_order_violated: C33 is violated: the order of the results is the order of arrival."
  },
  {
   "property": "C34",
   "status": "partial",
   "theorems": [
    "CatLearn.Props.C34_ucb_partial",
    "CatLearn.Props.C34_ucb_max_violated"
   ],
   "note": "C34_ucb_partial: C34 (partial): when minimising, the score falls with the prediction and grows with the uncertainty; when maximising, it grows with the uncertainty. | C34_ucb_max_violated: C34 is violated for every data: when maximising, the candidate with the larger prediction gets the lower score."
  },
  {
   "property": "C35",
   "status": "proved",
   "theorems": [
    "CatLearn.Props.C35_ei_is_expectation",
    "CatLearn.Props.C35_ei_positive_monotone",
    "CatLearn.Props.C35_ei_monotone_uncertainty",
    "CatLearn.Props.C35_ei_symmetric"
   ],
   "note": "C35_ei_is_expectation: C35: EI is the expectation, under the normal distribution with the predicted mean and standard deviation, of the improvement over the best value (zero if there is none). | C35_ei_positive_monotone: C35: EI is positive and never below the plain improvement; it is strictly increasing in the prediction when maximising and strictly decreasing when minimising. | C35_ei_monotone_uncertainty: C35: EI is strictly increasing in the uncertainty. | C35_ei_symmetric: C35: minimising is maximising the negated data."
  },
  {
   "property": "C36",
   "status": "proved",
   "theorems": [
    "CatLearn.Props.C36_pi_is_probability",
    "CatLearn.Props.C36_pi_monotone"
   ],
   "note": "C36_pi_is_probability: C36: PI is the probability, under the normal distribution with the predicted mean and standard deviation, of a value at least (at most, when minimising) the best one. | C36_pi_monotone: C36: PI lies strictly between 0 and 1, is strictly monotone in the prediction, and is at least 1/2 exactly when the prediction is at least as good as the best value."
  },
  {
   "property": "C37",
   "status": "partial",
   "theorems": [
    "CatLearn.Props.C37_classify_violated",
    "CatLearn.Props.C37_best_class_partial",
    "CatLearn.Props.C37_own_class_violated",
    "CatLearn.Props.C37_needs_features_violated"
   ],
   "note": "C37_classify_violated: C37 is violated: `classify` gives exactly the scores of `rank`, for every classifier: the class of a candidate has no influence on its score. | C37_best_class_partial: C37 (partial). A candidate is ranked against the best known target of its own class if this is the best of all known targets, in particular if all training structures are of one class. Missing: candidates of all other classes (see the violations). | C37_own_class_violated: C37, a concrete violation: training structures of class `true` have the target 10, those of class `false` the target 0. A candidate of class `false` predicted at 1 improves on its class but gets a negative optimistic score. | C37_needs_features_violated: C37, further: without training features, or with more candidates than training points, `classify` raises an exception although the features play no role in the scores."
  },
  {
   "property": "C38",
   "status": "proved",
   "theorems": [
    "CatLearn.Props.C38_normal_equations",
    "CatLearn.Props.C38_unique_minimiser"
   ],
   "note": "C38_normal_equations: C38: on an object without stored decomposition, `RR` returns the solution of the regularised normal equations, for every data set, every positive regularisation and every prior. | C38_unique_minimiser: C38: the coefficients returned by `RR` are the unique minimiser of the ridge cost."
  },
  {
   "property": "C39",
   "status": "proved",
   "theorems": [
    "CatLearn.Props.C39_loocv"
   ],
   "note": "C39_loocv: C39: the closed-form leave-one-out error is the root mean square of the errors made on each row by a new ridge regression (on a new object) on all other rows."
  },
  {
   "property": "C40",
   "status": "partial",
   "theorems": [
    "CatLearn.Props.C40_searched_reg_partial",
    "CatLearn.Props.C40_user_reg_violated",
    "CatLearn.Props.C40_stale_violated",
    "CatLearn.Props.C40_calls_violated"
   ],
   "note": "C40_searched_reg_partial: C40 (partial): without a given regularisation, on a new object, the coefficients are the ridge solution for the regularisation chosen by the search, which is reported with them. | C40_user_reg_violated: C40 is violated: a regularisation given by the user is not used; for every data set the call fails. | C40_stale_violated: C40 is violated when an object is used twice: the decomposition of the first data set is used for the second. For one row and one feature, fitting 1 = 1·a and then 1 = 2·a with regularisation 1 gives 1 instead of 2/5, whatever singular value decomposition is used. | C40_calls_violated: C40 is violated when `get_coefficients` is called again on the same object: for all data, the second call solves the normal equations with the products of the features of the first call, `X₁ᵀX₁`, in place of `X₂ᵀX₂`."
  },
  {
   "property": "C41",
   "status": "proved",
   "theorems": [
    "CatLearn.Kernel.C41_symmetric",
    "CatLearn.Kernel.C41_posSemidef",
    "CatLearn.Kernel.C41_posDef"
   ],
   "note": "C41_symmetric: C41: the covariance matrix of any data set is symmetric, for every kernel list. | C41_posSemidef: C41: the covariance matrix of any data set is positive semidefinite, for every list of kernels that are added or multiplied, of all the types that need no gradients. | C41_posDef: C41: with regularisation it is positive definite and so invertible."
  },
  {
   "property": "C42",
   "status": "proved",
   "theorems": [
    "CatLearn.Proc.C42_interpolates",
    "CatLearn.Proc.C42_zero_variance",
    "CatLearn.Proc.C42_variance",
    "CatLearn.Proc.C42_uncertainty"
   ],
   "note": "C42_interpolates: C42: without regularisation (and noise kernels) a model predicts the training targets at the training points. | C42_zero_variance: C42: and its uncertainty there is zero. | C42_variance: C42: the predicted variance is never negative, nor larger than the prior variance. | C42_uncertainty: C42: so no reported uncertainty is nan or negative."
  },
  {
   "property": "C43",
   "status": "partial",
   "theorems": [
    "CatLearn.Proc.C43_new_kernels_violated",
    "CatLearn.Proc.C43_new_features_violated",
    "CatLearn.Proc.C43_default_flag_violated",
    "CatLearn.Proc.C43_init_partial",
    "CatLearn.Proc.C43_consistent_partial",
    "CatLearn.Proc.C43_fresh_partial"
   ],
   "note": "C43_new_kernels_violated: C43 fails when `update_gp` is given kernels only: the inverse is that of the old covariance. A model of one point with target 1 and a constant kernel predicts 3/2 instead of 3/4. | C43_new_features_violated: C43 fails when `update_gp` is given training features only: a linear model with the point 1, which is changed to 2, predicts 1 instead of 2/5 at 1. | C43_default_flag_violated: C43 fails for models with hyperparameters on a log scale when `update_data` is called without the flag: even an update with the data the model has already changes the predictions. | C43_init_partial: C43: a new model is consistent and stores the data it was given (kernel lists that pack, see C45). | C43_consistent_partial: C43 (`_partial`: kernel lists that pack, see C45, and only the ways of updating in `Reach`): whatever the history, the stored inverse is that of the covariance of the stored data with the stored kernels and regularisation. | C43_fresh_partial: C43 (`_partial`: as before): a model with any history is the one that would be built from its latest data, kernels and regularisation, apart from the stored likelihood; so all predictions agree."
  },
  {
   "property": "C44",
   "status": "partial",
   "theorems": [
    "CatLearn.Proc.C44_agree_partial",
    "CatLearn.Proc.C44_scaled_partial",
    "CatLearn.Proc.C44_scaling_violated"
   ],
   "note": "C44_agree_partial: C44 (`_partial`: models that do not scale their data): `predict_uncertainty` returns what `predict` returns, and raises exactly when it raises. | C44_scaled_partial: C44 (`_partial`: the test points have to be scaled by the caller): for all models, `predict_uncertainty` on the scaled test points returns what `predict` returns on the test points. | C44_scaling_violated: C44 fails for models that scale their data: a linear model of the points (0, 0) and (2, 2)."
  },
  {
   "property": "C45",
   "status": "partial",
   "theorems": [
    "CatLearn.Kernel.C45_list_round_trip_partial",
    "CatLearn.Kernel.C45_kernel_round_trip_partial",
    "CatLearn.Kernel.C45_spread_partial",
    "CatLearn.Kernel.C45_noise_first_violated",
    "CatLearn.Kernel.C45_quadratic_violated"
   ],
   "note": "C45_list_round_trip_partial: C45 (`_partial`: no quadratic kernels, and noise kernels only at the end of the kernel list): writing a list of hyperparameters of the right length, possibly followed by others such as the regularisation, into the kernels and reading it again gives the same list, and leaves the features and operations of the kernels alone. | C45_kernel_round_trip_partial: C45 (`_partial`: as before): reading the hyperparameters and writing them back changes nothing. | C45_spread_partial: C45 (`_partial`: noise kernels only at the end of the kernel list): `list2kdict` spreads a list of numbers over the kernels, quadratic ones included, in order and without gap or overlap: each kernel gets as many numbers as it had, its features and operation stay, and together the kernels hold exactly the numbers given. | C45_noise_first_violated: C45 fails when a noise kernel is followed by another kernel: the position in the list is not advanced, so that the next kernel gets the hyperparameters of the noise kernel, whatever the list contains. | C45_quadratic_violated: C45 fails for every quadratic kernel: after its hyperparameters were set from a list they cannot be read again."
  },
  {
   "property": "C46",
   "status": "proved",
   "theorems": [
    "CatLearn.Kernel.C46_first_derivatives",
    "CatLearn.Kernel.C46_second_derivatives",
    "CatLearn.Kernel.C46_loop",
    "CatLearn.Kernel.C46_cross"
   ],
   "note": "C46_first_derivatives: C46: the values block of the covariance with gradients is the kernel, the off-diagonal block contains its partial derivatives with respect to the coordinates of the second point, and the lower left block is the transpose. | C46_second_derivatives: C46: the lower right block contains the second partial derivatives, one with respect to a coordinate of each point. | C46_loop: C46: the loop used for many features computes the same lower right block. | C46_cross: C46: the covariance of values at new points with the training data contains the derivatives at the training points."
  },
  {
   "property": "C47",
   "status": "partial",
   "theorems": [
    "CatLearn.Kernel.C47_gaussian_width",
    "CatLearn.Kernel.C47_laplacian_width",
    "CatLearn.Kernel.C47_jacobian_partial",
    "CatLearn.Kernel.C47_noise_violated",
    "CatLearn.Kernel.C47_laplacian_unscaled_violated",
    "CatLearn.Kernel.C47_features_violated"
   ],
   "note": "C47_jacobian_partial: C47 (`_partial`: lists of added Gaussian, linear, constant and scaled Laplacian kernels on all features; the last entry of the result, for the regularisation, is treated below): the gradient contains, in the order of the hyperparameter list, the partial derivatives of the covariance matrix with respect to each hyperparameter. | C47_noise_violated: C47 fails for the regularisation: the covariance contains its square, so that the diagonal of the derivative is `2 r`; the last entry of the gradient is the identity. | C47_laplacian_unscaled_violated: C47 fails for a Laplacian kernel without 'scaling': on its own it raises (the kernel matrix was never computed), and after a Gaussian kernel its derivative is computed from the matrix of the Gaussian kernel. | C47_features_violated: C47 fails for kernels on some of the features: the derivative is computed with all of them."
  },
  {
   "property": "C48",
   "status": "proved",
   "theorems": [
    "CatLearn.Err.C48_raises",
    "CatLearn.Err.C48_bounds",
    "CatLearn.Err.C48_zero",
    "CatLearn.Err.C48_pointwise",
    "CatLearn.Err.C48_percentile_mono",
    "CatLearn.Err.C48_percentile_bounds",
    "CatLearn.Err.C48_median",
    "CatLearn.Err.C48_swap",
    "CatLearn.Err.C48_order",
    "CatLearn.Err.C48_insensitive",
    "CatLearn.Err.C48_units"
   ],
   "note": "C48_raises: C48: unequal lengths raise AssertionError, and nothing else does. | C48_bounds: C48: |signed mean| ≤ mean absolute error ≤ rmse ≤ largest absolute error. | C48_zero: C48: the mean absolute error, and the rmse, are zero exactly if the prediction is the target. | C48_pointwise: C48: the lists of errors are those of the single points. | C48_percentile_mono: C48: percentiles are ordered. | C48_percentile_bounds: C48: and lie between the smallest and the largest element, which are the percentiles 0 and 100. | C48_median: C48: the median is the percentile 50. | C48_swap: C48: exchanging prediction and target changes nothing but the sign of the signed statistics. | C48_order: C48: the order of the pairs does not matter. | C48_insensitive: C48: the insensitive error is between zero and the absolute error, and vanishes exactly when no error exceeds the threshold. | C48_units: C48: if predictions and targets are expressed in another unit (factor `a`) and counted from another origin (`b`), every entry is the old one in the new unit."
  },
  {
   "property": "C49",
   "status": "partial",
   "theorems": [
    "CatLearn.Err.C49_zero_violated"
   ],
   "note": "C49_zero_violated: C49 fails: whatever the hyperparameters, the error of the predictions on the training data is zero, as they are made with the covariance that includes the regularisation."
  },
  {
   "property": "C50",
   "status": "partial",
   "theorems": [
    "CatLearn.Proc.C50_targets_partial",
    "CatLearn.Proc.C50_model_targets_partial",
    "CatLearn.Proc.C50_constant_violated",
    "CatLearn.Proc.C50_no_zero_std",
    "CatLearn.Proc.C50_round_trip",
    "CatLearn.Proc.C50_covariance_partial",
    "CatLearn.Proc.C50_laplacian_violated",
    "CatLearn.Proc.C50_log_scale_violated",
    "CatLearn.Proc.C50_unknown_violated"
   ],
   "note": "C50_targets_partial: C50 (`_partial`: targets that are not all equal): rescaling inverts the scaling of targets. | C50_model_targets_partial: C50 (`_partial`: targets that are not all equal): the same for the scaling a model keeps. | C50_constant_violated: C50 fails for equal targets: the scaled targets are nan, and so is what they are rescaled to. | C50_covariance_partial: C50 (`_partial`: Gaussian kernels with one width per feature and constant kernels, hyperparameters not on a log scale): the covariance of scaled features with the scaled hyperparameters is that of the original features with the original hyperparameters. | C50_laplacian_violated: C50 fails for Laplacian kernels, whose widths stay as they are although the features are scaled. | C50_log_scale_violated: C50 fails for Gaussian kernels when the hyperparameters are on a log scale: the logarithms are divided. | C50_unknown_violated: C50: kernel types without a scaling function raise NameError."
  },
  {
   "property": "C51",
   "status": "partial",
   "theorems": [
    "CatLearn.Proc.C51_nothing_lost",
    "CatLearn.Proc.C51_order_partial",
    "CatLearn.Proc.C51_model_partial",
    "CatLearn.Proc.C51_order_violated"
   ],
   "note": "C51_order_partial: C51 (`_partial`: at most ten kernels): kernels are read back in the order in which they were written. | C51_model_partial: C51 (`_partial`: at most ten kernels): the kernels of a model written to a file are read from it in the same order. | C51_order_violated: C51 fails for every list of more than ten different kernels."
  },
  {
   "property": "C52",
   "status": "proved",
   "theorems": [
    "CatLearn.Pot.C52_multiModal",
    "CatLearn.Pot.C52_mullerBrown",
    "CatLearn.Pot.C52_himmelblau",
    "CatLearn.Pot.C52_modifiedHimmelblau",
    "CatLearn.Pot.C52_rosenbrock",
    "CatLearn.Pot.C52_goldsteinPrice",
    "CatLearn.Pot.C52_noise"
   ],
   "note": "C52_multiModal: C52 for `MultiModal`. | C52_mullerBrown: C52 for `MullerBrown`, whatever its parameters. | C52_himmelblau: C52 for `Himmelblau`. | C52_modifiedHimmelblau: C52 for `ModifiedHimmelblau`. | C52_rosenbrock: C52 for `Rosenbrock`. | C52_goldsteinPrice: C52 for `GoldsteinPrice`. | C52_noise: C52 holds for `NoiseHimmelblau` only if the two random numbers agree, as the noise of the forces is independent of that of the energy."
  },
  {
   "property": "C53",
   "status": "partial",
   "theorems": [
    "CatLearn.MLMin.C53_run",
    "CatLearn.Masks.C53_round_trip",
    "CatLearn.Masks.C53_unmask",
    "CatLearn.Masks.C53_unmask_raises",
    "CatLearn.Masks.C53_mask_indices",
    "CatLearn.Masks.C53_free",
    "CatLearn.Masks.C53_fixed_partial",
    "CatLearn.Masks.C53_later_violated",
    "CatLearn.Masks.C53_first_violated",
    "CatLearn.Masks.C53_forces",
    "CatLearn.Masks.C53_energy",
    "CatLearn.Masks.C53_steps"
   ],
   "note": "C53_fixed_partial: C53, fixed coordinates, part: if the constraints name existing atoms and never disagree about an atom, every coordinate fixed by any listed constraint is removed from the surrogate's coordinates. Missing: lists with two constraints on the same atom that disagree (`C53_later_violated`, `C53_first_violated`). | C53_later_violated: C53 fails when a `FixCartesian` follows a `FixAtoms` on the same atom: assigning the row of the atom releases the coordinates that only the first one fixes. | C53_first_violated: C53 fails for the reverse order too: the first constraint of the list is applied again in every pass, so a `FixCartesian` at the head releases coordinates that a later `FixAtoms` had fixed."
  },
  {
   "property": "C54",
   "status": "proved",
   "theorems": [
    "CatLearn.MLMin.C54_fmax",
    "CatLearn.MLMin.C54_fmax_raises",
    "CatLearn.MLMin.C54_inner",
    "CatLearn.MLMin.C54_stops",
    "CatLearn.MLMin.C54_convergence",
    "CatLearn.MLMin.C54_budget",
    "CatLearn.MLMin.C54_lists",
    "CatLearn.MLMin.C54_data",
    "CatLearn.MLMin.C54_selection",
    "CatLearn.MLMin.C54_init"
   ],
   "note": "C54_fmax: `get_fmax` is the largest atomic force: it succeeds exactly for a positive number of atoms with three coordinates each, bounds the force on every atom and is attained. | C54_fmax_raises: C54, error case: a gradient whose length is no positive multiple of three has no largest force; ValueError. | C54_inner: C54, surrogate optimisation: the inner loop always stops by itself after at least one and at most 1001 steps (the only error is an index error of the mask; it never runs out of the model's fuel). | C54_stops: C54, termination: `run` ends after at most `max 1 (steps - iter)` passes. | C54_convergence: C54, convergence criterion: when `run` reports convergence, the force on every atom of the last evaluated structure is below `fmax`. | C54_budget: C54, budget: a call of `run` makes at most `max 1 (steps - iter)` evaluations. | C54_lists: C54, lists: the lists of geometries, energies, gradients, forces and Atoms stay the same length. | C54_data: C54, data: a run only appends, and what it appends are real evaluations: entry `k` of the new energies and gradients is the real calculator's answer at entry `k` of the new geometries, and the force entry is the largest atomic force of that gradient. | C54_selection: C54, acquisition: the geometry evaluated in a pass is one of the at most 1001 geometries met on the surrogate landscape, and no other of them is strictly better for the acquisition rule the caller named. | C54_init: C54, start: a new object holds the initial structure first, every previous calculation once (no two entries have the same geometry), lists of equal length and the iteration counter zero."
  },
  {
   "property": "C55",
   "status": "partial",
   "theorems": [
    "CatLearn.MLNEB.C55_num_images",
    "CatLearn.MLNEB.C55_endpoints",
    "CatLearn.MLNEB.C55_interior",
    "CatLearn.MLNEB.C55_third_partial",
    "CatLearn.MLNEB.C55_third_violated",
    "CatLearn.MLNEB.C55_stops",
    "CatLearn.MLNEB.C55_budget_partial",
    "CatLearn.MLNEB.C55_budget_violated",
    "CatLearn.MLNEB.C55_convergence",
    "CatLearn.MLNEB.C55_sequential_violated",
    "CatLearn.MLNEB.C55_surrogate_partial",
    "CatLearn.MLNEB.C55_surrogate_violated"
   ],
   "note": "C55_third_partial: C55, third point, part: with at least four images, or three images and an initial state that is not lower than the final one, the first evaluation is at an interior image. Missing: three images with a lower initial state (`C55_third_violated`). | C55_third_violated: C55 fails with three images (the smallest number the constructor makes): when the initial state is lower than the final one, the first evaluation is at the final endpoint, which is known already. | C55_budget_partial: C55, budget, part: a call makes at most `steps - iter` evaluations, except that it always makes one in the main loop and, when only the endpoints are known, the third point before it. Missing: with `steps ≤ 1` and two known structures two evaluations are made (`C55_budget_violated`). | C55_budget_violated: C55 fails with `steps = 1`: a calculation that knows only its endpoints makes two evaluations. | C55_sequential_violated: C55 fails across calls in sequential mode: if the first call ends by its budget before a stationary point is found, the object keeps three images, and the next call reports convergence with three images although the object was made with more. | C55_surrogate_partial: C55, surrogate loops, part: for `ml_steps ≤ 10000` the optimisation on the surrogate ends within two cycles of at most `max 1 ml_steps` steps, whatever the optimiser reports. Missing: larger values (`C55_surrogate_violated`). | C55_surrogate_violated: C55 fails for more than 10000 steps on the surrogate: a NaN energy sets the step counter to 10000, so as long as the energy stays NaN the loop never reaches its limit."
  },
  {
   "property": "C56",
   "status": "partial",
   "theorems": [
    "CatLearn.MLNEB.C56_rules_partial",
    "CatLearn.MLNEB.C56_acq5_violated",
    "CatLearn.MLNEB.C56_acq1_violated",
    "CatLearn.MLNEB.C56_distinct_partial"
   ],
   "note": "C56_rules_partial: C56, rules 1 to 4, part: the image selected under `acq_1` … `acq_4` is the one the description of the rule names. Missing: `acq_5` (`C56_acq5_violated`). | C56_acq5_violated: C56 fails for `acq_5`: it never alternates. Its last condition repeats the outer one, so it is `acq_2` for every profile, iteration and flag. | C56_acq1_violated: C56 fails for `acq_1` and `acq_4` as well: until a stationary point is found they are the same rule. | C56_distinct_partial: C56, part: `acq_1`, `acq_2`, `acq_3` and `acq_4` are four different rules: for each two of them there is a profile on which they choose different images. Missing: `acq_5`, see above."
  },
  {
   "property": "C57",
   "status": "partial",
   "theorems": [
    "CatLearn.DB.C57_partial",
    "CatLearn.DB.C57_all_partial",
    "CatLearn.DB.C57_refill_violated",
    "CatLearn.DB.C57_names_violated",
    "CatLearn.DB.C57_wrong_number",
    "CatLearn.DB.C57_update"
   ],
   "note": "C57_partial: C57 (partial: the fills name the columns in the order of the table and fill no identifier twice): after any history of operations that succeed, on an empty file, a query for any columns of any identifier returns, for a stored identifier, the last value written for each of the names, NULL if none was; for other identifiers it raises IndexError, as it does without names. | C57_all_partial: C57 (partial: the fills name the columns in the order of the table and fill no identifier twice): a query without an identifier returns one row for every identifier, in the order in which they were filled, with the last values written; without names the rows hold all columns, and the row of an identifier is the same whether it is asked for alone or with the others. | C57_refill_violated: C57 fails: `fill_db` adds a second row for an identifier that is present, and the query keeps returning the first row, that is the old value. | C57_names_violated: C57 fails: `fill_db` ignores the names it is given, so that names in another order than the columns put the values under the wrong descriptors, without an error."
  },
  {
   "property": "C58",
   "status": "partial",
   "theorems": [
    "CatLearn.DB.C58_partial",
    "CatLearn.DB.C58_one_parameter_partial",
    "CatLearn.DB.C58_order_violated",
    "CatLearn.DB.C58_columns_violated",
    "CatLearn.DB.C58_single_violated",
    "CatLearn.DB.C58_missing_violated",
    "CatLearn.DB.C58_broadcast_violated",
    "CatLearn.DB.C58_parameters",
    "CatLearn.DB.C58_parameters_unknown",
    "CatLearn.DB.C58_parameters_all",
    "CatLearn.DB.C58_parameters_empty"
   ],
   "note": "C58_partial: C58 (partial: at least two identifiers, requested in ascending order, every value present; the columns only up to their order): after any history, `get_fingerprints` returns one row per requested identifier, in the requested order, made of exactly the values stored for the requested parameters. For one parameter the matrix is exactly the stored values. | C58_one_parameter_partial: C58 (partial, as above, for one parameter): exactly the stored values. | C58_order_violated: C58 fails: the rows come in ascending order of the identifiers, not in the requested one, also when SQLite keeps the order of entry inside a row. | C58_columns_violated: C58 fails: whatever the order in which SQLite concatenates (as long as it looks at the stored rows only), the columns cannot follow both of two requests that list the parameters in different orders. | C58_single_violated: C58 fails: one identifier is an SQL error, for every database. | C58_missing_violated: C58 fails: an identifier without values gets the row of the next one, and the zeros go to the last row. | C58_broadcast_violated: C58 fails: an image with one value of the requested several gets it in all columns."
  },
  {
   "property": "C59",
   "status": "partial",
   "theorems": [
    "CatLearn.Nb.C59_partial",
    "CatLearn.Nb.C59_violated",
    "CatLearn.Nb.C59_domain"
   ],
   "note": "C59_partial: C59 (partial: the two atoms have the same buffer, for instance atoms of the same element): atom `j` is in the `k`-th neighbour shell of `i` iff `i` is in the `k`-th shell of `j`, for any number of shells. | C59_violated: C59 fails: two atoms with radii 1 and 2 at distance 3.45, with the default buffers: the second is a neighbour of the first, but not the first of the second."
  },
  {
   "property": "C60",
   "status": "proved",
   "theorems": [
    "CatLearn.Nb.C60_symmetric",
    "CatLearn.Nb.C60_geometry",
    "CatLearn.Nb.C60_shells"
   ],
   "note": "C60_symmetric: C60: `connection_matrix` is symmetric with zero diagonal and entries 0 and 1, for every distance function that is symmetric (as ASE's minimum image distance) and every buffer and shell. | C60_geometry: C60, non-periodic: for every geometry. | C60_shells: C60: a pair of atoms is in at most one neighbour shell: for radii that are not negative, a pair that is connected in shell `num` is not connected in any other shell, whatever the distances and the buffer."
  },
  {
   "property": "C61",
   "status": "partial",
   "theorems": [
    "CatLearn.Feat.C61_rows",
    "CatLearn.Feat.C61_parallel_partial",
    "CatLearn.Feat.C61_parallel_empty_violated",
    "CatLearn.Feat.C61_parallel_error_violated",
    "CatLearn.Feat.C61_dict_violated",
    "CatLearn.Feat.C61_names_partial",
    "CatLearn.Fpr.C61_fingerprint_pairs",
    "CatLearn.Fpr.C61_fingerprint_names",
    "CatLearn.Fpr.C61_autocorrelation_violated"
   ],
   "note": "C61_parallel_partial: C61 (partial: there is a structure, and no fingerprint raises), serial and parallel: for every order in which the worker processes finish, the parallel call returns what the serial call returns. | C61_parallel_empty_violated: C61 fails for the empty list: the serial call returns an empty matrix, the parallel one raises IndexError. | C61_parallel_error_violated: C61 fails: whatever a fingerprint function raises, the parallel call raises IndexError instead. | C61_dict_violated: C61 fails for dictionaries, which the documentation allows: a `defaultdict` is treated like the list of its keys, a plain `dict` is a TypeError. | C61_names_partial: C61, names (partial: every fingerprint function returns as many names for `None` as it returns numbers for a structure, and at least one): `return_names` has one name per column, in the same order of fingerprints. | C61_autocorrelation_violated: C61 fails for the autocorrelation fingerprint: with it in the list `return_names` always raises, although `return_vec` works."
  },
  {
   "property": "C62",
   "status": "proved",
   "theorems": [
    "CatLearn.Fpr.C62_composition",
    "CatLearn.Fpr.C62_eigenspectrum",
    "CatLearn.Fpr.C62_eigenspectrum_domain",
    "CatLearn.Fpr.C62_bag_edges",
    "CatLearn.Fpr.C62_autocorrelation",
    "CatLearn.Fpr.C62_autocorrelation_entry",
    "CatLearn.Fpr.C62_bag_edges_cn"
   ],
   "note": "C62_composition: C62: the composition and the bag of elements do not depend on the numbering of the atoms. | C62_eigenspectrum: C62: the eigenspectrum of the Coulomb matrix does not depend on the numbering of the atoms. | C62_eigenspectrum_domain: C62: the domain of `eigenspectrum_vec`: it succeeds iff the structure has at least two and at most `atom_len` atoms, and then returns `atom_len` numbers, the first ones being the eigenvalues in descending order. | C62_bag_edges: C62: the bag of edges does not depend on the numbering of the atoms (symmetric connectivity), errors included. | C62_autocorrelation: C62: the autocorrelation fingerprint does not depend on the numbering of the atoms. | C62_autocorrelation_entry: C62: entry `dd` of a parameter sums its products over the ordered pairs of connected atoms whose shortest path has `dd` bonds (the distance in the graph of the bonds); so every connected pair is counted at one distance only. | C62_bag_edges_cn: C143/C144: both bags are independent of the numbering of the atoms."
  },
  {
   "property": "C63",
   "status": "partial",
   "theorems": [
    "CatLearn.Fpr.C63_partial",
    "CatLearn.Fpr.C63_names_partial",
    "CatLearn.Fpr.C63_order_violated"
   ],
   "note": "C63_partial: C63 (partial: `atom_types` in ascending order, as `normalize_features` makes it, and complete): the bag of edges sums to the number of bonds, and the entry for the pair `(a, b)` of element types is the number of bonds between atoms of these two elements. | C63_names_partial: C63 (partial: `atom_types` in ascending order and complete): for any two elements of `atom_types` the names and the values have an entry in the same position, named by the symbols of the two elements and counting the bonds between them. | C63_order_violated: C63 fails when the user gives `atom_types` in another order: the bonds between different elements are lost."
  },
  {
   "property": "C64",
   "status": "partial",
   "theorems": [
    "CatLearn.Fpr.C64_distance_partial",
    "CatLearn.Fpr.C64_reciprocal_violated",
    "CatLearn.Fpr.C64_plane_violated",
    "CatLearn.Fpr.C64_parameter_partial",
    "CatLearn.Fpr.C64_mean_violated"
   ],
   "note": "C64_distance_partial: C64 (partial: this is what `distance_vec` returns): for an element with counted pairs the reciprocal of the mean distance of the pairs that differ in all three coordinates; 0 for the others. | C64_reciprocal_violated: C64 fails: two atoms at distance 7 give 1/7. | C64_plane_violated: C64 fails: atoms that agree in a coordinate are not counted at all: two atoms on the z axis have no distance. | C64_parameter_partial: C64 (partial: the sum; every element type has the parameter): `sum_all` is the sum of the parameter over the atoms; `mean_all` is that sum over the number of element types plus two. | C64_mean_violated: C64 fails: two hydrogen atoms with parameter 3 have the mean 2 (the sum 6 over 1 + 2 entries), not 3."
  },
  {
   "property": "C65",
   "status": "partial",
   "theorems": [
    "CatLearn.Slab.C65_partition",
    "CatLearn.Slab.C65_primary",
    "CatLearn.Slab.C65_autogen_partial",
    "CatLearn.Slab.C65_check_violated"
   ],
   "note": "C65_autogen_partial: C65 (partial: the user attached at most one of the two lists, and there is an adsorbate): after `autogen_info` the adsorbate and slab atoms partition the atoms, whatever list was attached before (a wrong one is rejected), and chemisorbed atoms are adsorbate atoms, site and ligand atoms are slab atoms. | C65_check_violated: C65 fails when both lists are attached: the check looks at their lengths only, and overlapping lists that leave atoms out are accepted."
  },
  {
   "property": "C66",
   "status": "partial",
   "theorems": [
    "CatLearn.Slab.C66_autogen",
    "CatLearn.Slab.C66_autogen_layers",
    "CatLearn.Slab.C66_violated"
   ],
   "note": "C66_violated: C66 fails for `termination_info`: the outermost layer is stored as subsurface and the second layer as termination."
  },
  {
   "property": "C67",
   "status": "partial",
   "theorems": [
    "CatLearn.Slab.C67_partial",
    "CatLearn.Slab.C67_oxygen_first_partial",
    "CatLearn.Slab.C67_first_violated",
    "CatLearn.Slab.C67_violated"
   ],
   "note": "C67_partial: C67 (partial: this much holds for every order): a structure called an oxide contains oxygen and a metal that is not more abundant than oxygen. | C67_oxygen_first_partial: C67 (partial: oxygen happens to come first in the set): the answer is exact, namely whether some metal is at most as abundant as oxygen and more than a quarter as abundant. | C67_first_violated: C67: conversely the element that comes first in the set is never considered: if it is the only metal, the structure is not called an oxide. | C67_violated: C67 fails: for every metal, the dioxide is an oxide or not depending on the order of a set."
  },
  {
   "property": "C68",
   "status": "partial",
   "theorems": [
    "CatLearn.Split.C68_partial",
    "CatLearn.Split.C68_violated",
    "CatLearn.Split.C68_parallel_partial",
    "CatLearn.Split.C68_parallel_violated"
   ],
   "note": "C68_partial: C68 (partial: all iterations but the first): iteration `x` trains on the last `x * step` rows with their own targets; there are `(n - min_data) // step` iterations. | C68_violated: C68 fails for the first iteration, which trains on all rows, and for the second, which trains on `step` rows even if that is below `min_data`; the size `min_data` itself is used only if it is a multiple of the step, and the reported sizes do not grow. | C68_parallel_partial: C68 (partial), parallel: the results are those of the serial run in the order in which the tasks finish. | C68_parallel_violated: C68 fails in parallel: another order of arrival gives another curve."
  },
  {
   "property": "C69",
   "status": "partial",
   "theorems": [
    "CatLearn.Split.C69_partial",
    "CatLearn.Split.C69_size_violated",
    "CatLearn.Split.C69_target_violated"
   ],
   "note": "C69_partial: C69 (partial: the matrix only): for every shuffle the training and hold-out rows together are the rows of the matrix, the hold-out set has `index` rows. | C69_size_violated: C69 fails for the targets: they have the sizes of the other set. | C69_target_violated: C69 fails even with equal sizes: the target of a row is the one of another row, whether or not the rows moved."
  },
  {
   "property": "C70",
   "status": "proved",
   "theorems": [
    "CatLearn.Split.C70_disjoint",
    "CatLearn.Split.C70_errors"
   ],
   "note": "C70_disjoint: C70: for every shuffle in both calls: the test set has `min(size, n)` structures and the training set, told which are taken, `min(size', n - taken)`, or all the rest for `size = None`; the numbers in both sets are distinct and disjoint; every number belongs to its structure and every target to its structure. | C70_errors: C70: the calls succeed when every structure has the key, and a missing key of a used structure is a KeyError."
  },
  {
   "property": "C71",
   "status": "partial",
   "theorems": [
    "CatLearn.Props.C71_input_untouched_violated",
    "CatLearn.Props.C71_input_untouched_partial"
   ],
   "note": "C71_input_untouched_violated: C71 is violated: without targets the caller's own array is reordered, also when the call is then refused. | C71_input_untouched_partial: C71 (partial): the caller's array still has the same rows, in another order."
  },
  {
   "property": "C72",
   "status": "partial",
   "theorems": [
    "CatLearn.Props.C72_generation_completes_violated",
    "CatLearn.Props.C72_generation_completes_partial"
   ],
   "note": "C72_generation_completes_violated: C72 is violated: with an accuracy, natural selection can leave a single individual, and from then on the search for a second parent never ends, whatever is drawn. | C72_generation_completes_partial: C72 (partial): with at least two individuals the search for a mate can always end: whatever happened in earlier attempts, some outcome of the next shuffle and draws ends it."
  },
  {
   "property": "C73",
   "status": "partial",
   "theorems": [
    "CatLearn.Props.C73_dmax_violated",
    "CatLearn.Props.C73_dmax_partial",
    "CatLearn.Props.C73_limit_mutant_partial"
   ],
   "note": "C73_dmax_violated: C73 is violated: with `dmax = 1`, mating two individuals of one feature each gives one of two features, and nothing reduces it. | C73_dmax_partial: C73 (partial): individuals of the initial population have between 1 and `dmax` features, and a mutant within the limit is left alone. | C73_limit_mutant_partial: C73 (partial): a mutant above the limit passes once more through the removal step. It keeps at least one feature and gains none in number; it loses at least one as soon as one of the draws reaches the threshold; it ends with a single one if all do. Nothing brings it below `dmax` when too few draws reach the threshold (last part)."
  },
  {
   "property": "C74",
   "status": "partial",
   "theorems": [
    "CatLearn.Props.C74_survival_across_generations_violated",
    "CatLearn.Props.C74_same_batch_partial"
   ],
   "note": "C74_survival_across_generations_violated: C74 is violated: ranks are computed within the initial population and within each batch of offspring only, so natural selection can keep an offspring and drop an older individual that strictly dominates it. | C74_same_batch_partial: C74 (partial). Without the removal of duplicates, after any number of generations a member of the population is accompanied by all members of its own batch that strictly dominate it, the initial population being the first batch: if individual `j` of batch `m` is still there and individual `i` of that batch strictly dominates it, `i` is still there. Missing: individuals of different batches (see the violation)."
  },
  {
   "property": "C75",
   "status": "proved",
   "theorems": [
    "CatLearn.Props.C75_cross_validation"
   ],
   "note": "C75_cross_validation: C75. The cross validation used for the fitness tests on every row exactly once, and in every split the test and training rows together are all the rows."
  },
  {
   "property": "C76",
   "status": "partial",
   "theorems": [
    "CatLearn.Props.C76_different_mates_partial",
    "CatLearn.Props.C76_different_mates_violated"
   ],
   "note": "C76_different_mates_partial: C76 (partial): when the population is a list (after natural selection) the two parents of a mating are different members of it. | C76_different_mates_violated: C76 is violated: on the initial population, a numpy array, an individual can be mated with itself, and the child is a copy of it."
  },
  {
   "property": "C77",
   "status": "partial",
   "theorems": [
    "CatLearn.Props.C77_nonempty_individuals_violated",
    "CatLearn.Props.C77_nonempty_individuals_partial"
   ],
   "note": "C77_nonempty_individuals_violated: C77 is violated: the flip mutation can remove the last feature, and the fitness function is then called with no feature at all. | C77_nonempty_individuals_partial: C77 (partial): the initial individuals, the offspring of the removing mutation and, from a parent with a feature, the offspring of the including mutation have at least one feature, whatever is drawn and whether or not the number of features is limited. (Mating and the flip mutation do not have this property, see `C77_nonempty_individuals_violated`.)"
  },
  {
   "property": "C78",
   "status": "partial",
   "theorems": [
    "CatLearn.Props.C78_caller_arrays_violated",
    "CatLearn.Props.C78_caller_arrays_partial"
   ],
   "note": "C78_caller_arrays_violated: C78 is violated: a standard deviation array passed in by the caller has its zeros overwritten. | C78_caller_arrays_partial: C78 (partial): a divisor array without zeros is left as it is."
  },
  {
   "property": "C79",
   "status": "proved",
   "theorems": [
    "CatLearn.Props.C79_clean_skewness"
   ],
   "note": "C79_clean_skewness: C79. `clean_skewness` keeps exactly the columns whose skewness is a number strictly below the threshold in absolute value, applies the same selection to train, test and labels, and keeps the order."
  },
  {
   "property": "C80",
   "status": "partial",
   "theorems": [
    "CatLearn.Props.C80_mask_protects_partial",
    "CatLearn.Props.C80_mask_protects_violated"
   ],
   "note": "C80_mask_protects_partial: C80 (partial): `clean_infinite` never removes a feature listed in `mask`. | C80_mask_protects_violated: C80 is violated by `clean_variance` and `clean_skewness`: a constant feature is removed although it is masked, and so is any feature above the skewness bound."
  },
  {
   "property": "C81",
   "status": "partial",
   "theorems": [
    "CatLearn.Props.C81_dev_respected_partial",
    "CatLearn.Props.C81_dev_respected_violated"
   ],
   "note": "C81_dev_respected_partial: C81 (partial). For fewer deviations than the constant `con` the claim holds: every pair of a row and a target within `dev` median absolute deviations `m` of the median is kept, if there is any deviation. Missing: every larger number of deviations (see the violation). | C81_dev_respected_violated: C81 is violated: the number of deviations asked for has no influence, so e.g. with `dev = 3` a target well within three deviations of the median is removed."
  },
  {
   "property": "C82",
   "status": "proved",
   "theorems": [
    "CatLearn.Props.C82_single_transform"
   ],
   "note": "C82_single_transform: C82: every number whose root or logarithm is taken by `single_transform` is at least 1, so the transformed features are finite; there are `3 m` of them: squares, roots, logarithms."
  },
  {
   "property": "C83",
   "status": "partial",
   "theorems": [
    "CatLearn.Props.C83_input_untouched_violated",
    "CatLearn.Props.C83_history_partial",
    "CatLearn.Props.C83_history_violated"
   ],
   "note": "C83_input_untouched_violated: C83 is violated by every matrix: whatever matrix with at least one entry is given to `get_ablog`, its caller finds every entry larger by at least one afterwards, so that a second call on the same variable works on other data. | C83_history_partial: C83 (partial: scripts that do not call `get_ablog` first). However many of the other functions were called on the array, it is the one it was, and the next call returns what it would have returned as the first. | C83_history_violated: C83 is violated more with every call: after any calls, `k` of them of `get_ablog`, every entry of the caller's array is larger by at least `2 ^ k - 1`, and the entries of a column by the same number."
  },
  {
   "property": "C84",
   "status": "partial",
   "theorems": [
    "CatLearn.Props.C84_exclude_partial",
    "CatLearn.Props.C84_exclude_violated"
   ],
   "note": "C84_exclude_partial: C84 (partial): for `N ≥ 1`, `1` is not among the generated products if excluded. | C84_exclude_violated: C84 is violated for `N = 0`: `1` is returned although excluded."
  },
  {
   "property": "C85",
   "status": "proved",
   "theorems": [
    "CatLearn.Props.C85_fractions"
   ],
   "note": "C85_fractions: C85. `generate_features` returns every fraction in lowest terms with at most `max_num` factors in the numerator and at most `max_den` in the denominator exactly once, and `1` unless excluded."
  },
  {
   "property": "C86",
   "status": "partial",
   "theorems": [
    "CatLearn.Props.C86_greedy_metadata_violated"
   ],
   "note": "C86_greedy_metadata_violated: C86 is violated: whenever the user's predict function returns additional values, greedy elimination raises an exception instead of reporting them."
  },
  {
   "property": "C87",
   "status": "partial",
   "theorems": [
    "CatLearn.Props.C87_metadata_partial",
    "CatLearn.Props.C87_metadata_violated"
   ],
   "note": "C87_metadata_partial: C87 (partial): if the scores happen to be in ascending order of position already, each reported feature of importance elimination comes with the fold-averaged metadata of that very feature (serial run). | C87_metadata_violated: C87 is violated: in a serial run over features 0 and 1, where feature 1 has the lower score and metadata 20 and feature 0 has metadata 10, feature 1 is eliminated and reported with the metadata of feature 0."
  },
  {
   "property": "C88",
   "status": "partial",
   "theorems": [
    "CatLearn.Props.C88_restart_partial",
    "CatLearn.Props.C88_kill_any_time_violated"
   ],
   "note": "C88_restart_partial: C88 (partial: kills outside the writing of the save file). Whatever kills came before, a run that is killed at any moment can be restarted, with the result of the uninterrupted run, exactly if it was not killed while the file was being written. | C88_kill_any_time_violated: C88 is violated: a run killed while the save file is being written cannot be restarted."
  },
  {
   "property": "C89",
   "status": "partial",
   "theorems": [
    "CatLearn.Props.C89_own_file_partial",
    "CatLearn.Props.C89_uses_given_data_violated"
   ],
   "note": "C89_own_file_partial: C89 (partial: a save file that is absent or was left by runs on the same data). Then the result is the one that features and targets give without a save file; two such files lead to the same result. | C89_uses_given_data_violated: C89 is violated: with the save file of an earlier search present, a search on different data does not return what that data gives, but what the earlier data gives."
  },
  {
   "property": "C90",
   "status": "partial",
   "theorems": [
    "CatLearn.Props.C90_response_orthogonal_partial",
    "CatLearn.Props.C90_response_orthogonal_violated"
   ],
   "note": "C90_response_orthogonal_partial: C90 (partial): with a single accepted feature of norm 1, the response of every remaining feature is orthogonal to it. | C90_response_orthogonal_violated: C90 is violated by an accepted feature of another norm, and by a second accepted feature: the response keeps a component along them."
  },
  {
   "property": "C91",
   "status": "partial",
   "theorems": [
    "CatLearn.Props.C91_accepts_best_violated",
    "CatLearn.Props.C91_accepts_best_partial"
   ],
   "note": "C91_accepts_best_violated: C91 is violated: five features are screened; the two most correlated ones are features 3 and 1. The regression on them gives feature 1 the coefficient 2 and feature 3 the coefficient 1. The round accepts feature 3. | C91_accepts_best_partial: C91 (partial). In the first round without random features, if the features that pass the correlation screen are, in the order of their correlation, also in the order of their columns, the round accepts the `step` of them with the largest absolute coefficients: every accepted feature passed the screen, and none that passed it and is not accepted has a larger coefficient. Missing: every other order (see the violation)."
  },
  {
   "property": "C92",
   "status": "partial",
   "theorems": [
    "CatLearn.Props.C92_size_honoured_violated",
    "CatLearn.Props.C92_default_size_partial"
   ],
   "note": "C92_size_honoured_violated: C92 is violated: without iteration the requested size has no influence on the result. | C92_default_size_partial: C92 (partial). Without iteration and random check the size is honoured if it is the number of data, which is the default, and there are that many features. Missing: every other size (see the violation)."
  },
  {
   "property": "C93",
   "status": "proved",
   "theorems": [
    "CatLearn.Props.C93_same_features",
    "CatLearn.Props.C93_eliminate_features"
   ],
   "note": "C93_same_features: C93: for every order of the features and every size, the reduced training and test matrices hold the same features in the same (original) order: the first `size` of the order, each once. | C93_eliminate_features: C93: `eliminate_features` returns a training and a test matrix that hold the same features of their inputs, in the original order, each once: the first ones of the returned order."
  },
  {
   "property": "C94",
   "status": "proved",
   "theorems": [
    "CatLearn.Props.C94_variance"
   ],
   "note": "C94_variance: C94: the reported variances are in decreasing order and add up to 100 per cent (singular values are non-negative; not all zero)."
  },
  {
   "property": "C95",
   "status": "partial",
   "theorems": [
    "CatLearn.Props.C95_object_unchanged_violated",
    "CatLearn.Props.C95_reuse_partial"
   ],
   "note": "C95_object_unchanged_violated: C95 is violated: after a successful call of a screening object that was created with the random check switched on, the check is off for all later calls. | C95_reuse_partial: C95 (partial). An object created without the random check is left unchanged, so that any number of calls on the same data all give the result of the first; with the check switched on this holds for calls that are refused because of the dimensions."
  },
  {
   "property": "C96",
   "status": "partial",
   "theorems": [
    "CatLearn.Props.C96_optimistic_partial",
    "CatLearn.Props.C96_rank_partial",
    "CatLearn.Props.C96_optimistic_min_violated"
   ],
   "note": "C96_optimistic_partial: C96 (partial): when maximising, the optimistic score is the best plausible improvement: it grows with prediction and uncertainty, and is positive exactly if prediction plus uncertainty exceeds the best value. | C96_rank_partial: C96 (partial): ranked while maximising, every candidate gets a score, which is positive exactly if its prediction plus uncertainty exceeds every known target, and the better of two plausible values has the higher score. | C96_optimistic_min_violated: C96 is violated when minimising: `rank` uses the same score, so the candidate with the larger (worse) prediction is ranked higher."
  },
  {
   "property": "C97",
   "status": "partial",
   "theorems": [
    "CatLearn.Props.C97_n_max_partial",
    "CatLearn.Props.C97_n_max_violated"
   ],
   "note": "C97_n_max_partial: C97 (partial): if the initial subset is at most one batch, no iteration trains on more than `n_max` points. | C97_n_max_violated: C97 is violated with the default initial subset and batches of one: for a limit of 3 training points, the third iteration trains on 4."
  },
  {
   "property": "C98",
   "status": "partial",
   "theorems": [
    "CatLearn.Props.C98_rank_value_violated",
    "CatLearn.Props.C98_rank_value_partial"
   ],
   "note": "C98_rank_value_violated: C98 is violated: with a numerical target as objective, UCB, EI and PI give no scores at all. | C98_rank_value_partial: C98 (partial). With a numerical target the metrics that do not depend on the kind of objective give every candidate the score relative to this target, whatever the training targets are, and a candidate predicted nearer the target gets the higher proximity."
  },
  {
   "property": "C99",
   "status": "proved",
   "theorems": [
    "CatLearn.Props.C99_proximity"
   ],
   "note": "C99_proximity: C99: the proximity scores prefer predictions closer to the target value: `proximity` is at most 0, with equality exactly at the target; a candidate strictly closer scores strictly higher, for `proximity`, `optimistic_proximity` and the probability density (at equal uncertainty)."
  },
  {
   "property": "C100",
   "status": "partial",
   "theorems": [
    "CatLearn.Props.C100_cluster_partial",
    "CatLearn.Props.C100_cluster_violated"
   ],
   "note": "C100_cluster_partial: C100 (partial): for positive predictions a candidate in a more populated cluster scores lower. | C100_cluster_violated: C100 is violated for negative predictions: the more populated cluster is preferred."
  },
  {
   "property": "C101",
   "status": "proved",
   "theorems": [
    "CatLearn.Props.C101_classify_order"
   ],
   "note": "C101_classify_order: C101: for every classifier, `classify` returns one score per candidate, in the order of the candidates: score `i` is computed from prediction `i` and uncertainty `i`, whatever the classes."
  },
  {
   "property": "C102",
   "status": "partial",
   "theorems": [
    "CatLearn.RidgeSearch.C102_fit_partial",
    "CatLearn.RidgeSearch.C102_fit_violated",
    "CatLearn.RidgeSearch.C102_search_partial",
    "CatLearn.RidgeSearch.C102_singular_violated",
    "CatLearn.RidgeSearch.C102_few_steps_violated",
    "CatLearn.RidgeSearch.C102_no_step",
    "CatLearn.RidgeSearch.C102_nan_violated"
   ],
   "note": "C102_fit_partial: C102, from data to coefficients (`_partial`: for independent features and at least two values on the grid): on a new object, `get_coefficients` finds a positive regularisation whose leave-one-out error (of ridge regressions without each data point) is not larger than that of any value on the initial grid, and returns the coefficients that minimise the cost with this regularisation, which no others do. | C102_fit_violated: C102 is violated for features that are not independent: whatever the data, the coefficients `get_coefficients` returns are not numbers. | C102_search_partial: C102 (`_partial`: not for singular data nor fewer than two steps of the grid, see below): if at least one search step is made, the regularisation found is positive and finite and, by the error estimate used (leave-one-out or bootstrap), at least as good as every point of the initial grid: all values spaced evenly in the logarithm from half the smallest to twice the largest singular value, and the two extreme values beyond. The refinement never makes the result worse. | C102_singular_violated: C102 is violated for data whose smallest singular value is zero (a feature that is zero for all data, or fewer data than features): the logarithm of zero makes the grid NaN, `argmin` prefers NaN, and the result is NaN, or zero if the error estimate without regularisation is itself NaN; the coefficients are then NaN or infinite. | C102_few_steps_violated: C102 is violated for `wsteps = 1` or `wsteps = 0` with more than one search step: the second step raises TypeError or UnboundLocalError, whatever the data. | C102_nan_violated: C102 is violated if the error estimate is NaN for every regularisation (C208: a data point that is in every bootstrap sample): the smallest value of the grid is returned, whatever the data."
  },
  {
   "property": "C103",
   "status": "proved",
   "theorems": [
    "CatLearn.Props.C103_effective_parameters"
   ],
   "note": "C103_effective_parameters: C103: the effective number of parameters is the trace of the matrix that maps targets to fitted values; it is between 0 and the number of features."
  },
  {
   "property": "C104",
   "status": "proved",
   "theorems": [
    "CatLearn.Props.C104_bootstrap_out_of_sample",
    "CatLearn.Props.C104_epe_between"
   ],
   "note": "C104_bootstrap_out_of_sample: C104: the bootstrap error of a point uses only models that were not trained on it: errors of models trained on the point may be changed at will without any effect. | C104_epe_between: C104: the combined estimate lies between the training error and the out-of-sample error."
  },
  {
   "property": "C105",
   "status": "partial",
   "theorems": [
    "CatLearn.Kernel.C105_first_derivatives_partial",
    "CatLearn.Kernel.C105_linear_second_derivative_violated"
   ],
   "note": "C105_first_derivatives_partial: C105: the constant kernel with gradients contains its derivatives (zero); the first derivatives of the linear kernel are right as well. | C105_linear_second_derivative_violated: C105 fails: the second derivative of the linear kernel with respect to different coordinates is zero, the covariance with gradients contains 1."
  },
  {
   "property": "C106",
   "status": "partial",
   "theorems": [
    "CatLearn.Kernel.C106_gradient_covariance_partial",
    "CatLearn.Kernel.C106_linear_violated"
   ],
   "note": "C106_gradient_covariance_partial: C106: the covariance of values and gradients is positive semidefinite for every list of Gaussian, constant, multi-constant and noise kernels, and positive definite and invertible with regularisation. | C106_linear_violated: C106 fails with a linear kernel: with one point and two features the covariance is not positive semidefinite."
  },
  {
   "property": "C107",
   "status": "partial",
   "theorems": [
    "CatLearn.Kernel.C107_sum_partial",
    "CatLearn.Kernel.C107_product_violated"
   ],
   "note": "C107_sum_partial: C107: for added Gaussian and constant kernels the blocks of the covariance with gradients are the partial derivatives of the sum of the scaled kernels. | C107_product_violated: C107 fails for products: a Gaussian kernel multiplied by a constant `c` has second derivative `c / w²` at every point, the covariance with gradients has zero there."
  },
  {
   "property": "C108",
   "status": "partial",
   "theorems": [
    "CatLearn.Kernel.C108_log_scale_partial",
    "CatLearn.Kernel.C108_unscaled_violated"
   ],
   "note": "C108_log_scale_partial: C108 (`_partial`: every kernel has a 'scaling'): the covariance with hyperparameters on a log scale is the covariance with the exponentiated hyperparameters. | C108_unscaled_violated: C108 fails for a kernel without 'scaling': on a log scale the missing scaling of 1 is exponentiated and every covariance is multiplied by `e`."
  },
  {
   "property": "C109",
   "status": "partial",
   "theorems": [
    "CatLearn.Kernel.C109_order_partial",
    "CatLearn.Kernel.C109_product_violated"
   ],
   "note": "C109_order_partial: C109 (`_partial`: added kernels): the covariance does not depend on the order of the kernels in the list, and a single kernel gives its scaled kernel function. | C109_product_violated: C109 fails for products: with the operation 'multiplication' on every kernel the covariance is zero (the product is started from a matrix of zeros), and exchanging the two factors of a product changes the covariance."
  },
  {
   "property": "C110",
   "status": "partial",
   "theorems": [
    "CatLearn.Kernel.C110_quadratic_single_partial",
    "CatLearn.Kernel.C110_rational_partial",
    "CatLearn.Kernel.C110_shape_partial",
    "CatLearn.Kernel.C110_degree_violated",
    "CatLearn.Kernel.C110_quadratic_violated"
   ],
   "note": "C110_quadratic_single_partial: C110 (`_partial`: a single slope): the quadratic kernel depends on slope and degree as documented. | C110_rational_partial: C110 (`_partial`: a single slope): the kernel is the documented one for the slope `s / d^(3/2)`, and for the slope given if the degree is one. | C110_shape_partial: C110 (`_partial`: a single slope): the kernel is between zero and one, one exactly for points that agree, and the smaller the farther the points are apart. | C110_degree_violated: C110 fails for every degree other than one: the kernel of different points is not the documented one. | C110_quadratic_violated: C110 fails for more than one feature: the degree is not used at all (the second slope takes its place), nor is any slope from the third on."
  },
  {
   "property": "C111",
   "status": "partial",
   "theorems": [
    "CatLearn.Kernel.C111_bounds_partial",
    "CatLearn.Kernel.C111_bounds_violated",
    "CatLearn.Kernel.C111_multi_violated",
    "CatLearn.Kernel.C111_format"
   ],
   "note": "C111_bounds_partial: C111 (`_partial`: bounds the user gives are as many as the kernel has hyperparameters, and without them the multi kernels have three and two constants): `prepare_kernels` returns one bound for every hyperparameter and one for the regularisation. | C111_bounds_violated: C111 fails: the number of bounds the user gives is not compared with the number of hyperparameters. Whatever kernel without scaling is accepted with some bounds, it is accepted with any other number of bounds as well, with the same hyperparameters, and that number is returned (and one for the regularisation). | C111_multi_violated: C111 fails: without bounds of the user a `constant_multi` kernel gets three and a `noise_multi` kernel two, however many hyperparameters it has."
  },
  {
   "property": "C112",
   "status": "partial",
   "theorems": [
    "CatLearn.Kernel.C112_usable_types_partial",
    "CatLearn.Kernel.C112_unusable_types_violated",
    "CatLearn.Kernel.C112_refused"
   ],
   "note": "C112_usable_types_partial: C112 (partial). Any list of Gaussian, Laplacian, quadratic, linear and constant kernels with one number for all features, on any selection of features without repetition, can be used. Missing: the types of the violation. | C112_unusable_types_violated: C112 fails: kernel types without a `_setup` function ('sqe', 'scaled_sqe' and 'AA' are implemented in `kernels.py` and in the packing of hyperparameters) make every preparation fail."
  },
  {
   "property": "C113",
   "status": "proved",
   "theorems": [
    "CatLearn.Proc.C113_can_build",
    "CatLearn.Proc.C113_duplicates"
   ],
   "note": "C113_can_build: C113: with a regularisation different from zero, a model can be built on any training data – points may coincide – from kernels with positive hyperparameters. | C113_duplicates: C113: without regularisation (and noise kernels), coinciding training points make it impossible."
  },
  {
   "property": "C114",
   "status": "proved",
   "theorems": [
    "CatLearn.Proc.C114_cholesky",
    "CatLearn.Proc.C114_density",
    "CatLearn.Proc.C114_scaled"
   ],
   "note": "C114_cholesky: C114: the diagonal of a Cholesky factor gives half the logarithm of the determinant. | C114_density: C114: the stored log marginal likelihood is the logarithm of the density of the training targets under the prior of the model. | C114_scaled: C114 with `scale_data=True`: it is the density of the standardised targets under the prior at the standardised features; for targets without variation it is NaN."
  },
  {
   "property": "C115",
   "status": "partial",
   "theorems": [
    "CatLearn.Proc.C115_variance",
    "CatLearn.Proc.C115_more_data_partial",
    "CatLearn.Proc.C115_scaled_violated"
   ],
   "note": "C115_more_data_partial: C115 (`_partial`: models that do not scale their data): so no predicted uncertainty is larger. | C115_scaled_violated: C115 fails for models that scale their data: the uncertainty is multiplied by the standard deviation of the targets, which a further point can increase. With a constant kernel the uncertainty at every point is larger after a third point with the target 10 than for the targets 0 and 2."
  },
  {
   "property": "C116",
   "status": "proved",
   "theorems": [
    "CatLearn.Proc.C116_order"
   ],
   "note": "C116_order: C116: the order of the training data does not matter: when a model can be built from training pairs in one order it can be built from them in every order, and all predictions and uncertainties are the same."
  },
  {
   "property": "C117",
   "status": "proved",
   "theorems": [
    "CatLearn.Proc.C117_best_linear"
   ],
   "note": "C117_best_linear: C117: when function value and observed targets are random with the covariances the kernels describe, the prediction is the best linear predictor: its mean squared error is the predicted variance, and no other weighted sum of the targets has a smaller one."
  },
  {
   "property": "C119",
   "status": "partial",
   "theorems": [
    "CatLearn.Proc.C119_bounds_partial",
    "CatLearn.Proc.C119_sum_violated",
    "CatLearn.Proc.C119_log_scale_violated"
   ],
   "note": "C119_bounds_partial: C119 (`_partial`: only bounds, and only for regularisations that are not on a log scale): 'uncertainty_with_reg' is at least the standard deviation `sqrt (var + reg²)` of a noisy observation and at most `sqrt 2` times that. | C119_sum_violated: C119 fails: standard deviations are added instead of variances. | C119_log_scale_violated: C119 fails on a log scale: the logarithm of the noise is added, so that the result can be negative."
  },
  {
   "property": "C120",
   "status": "partial",
   "theorems": [
    "CatLearn.Proc.C120_training_partial",
    "CatLearn.Proc.C120_noise_violated"
   ],
   "note": "C120_training_partial: C120 (`_partial`: kernels without noise): the predictions for the training data reported with the training error are those `predict` makes at the training points. | C120_noise_violated: C120 fails with a noise kernel: the covariance of the training data with themselves contains the noise."
  },
  {
   "property": "C121",
   "status": "partial",
   "theorems": [
    "CatLearn.Proc.C121_uncertainty_partial",
    "CatLearn.Proc.C121_default_violated"
   ],
   "note": "C121_uncertainty_partial: C121 (`_partial`: models with a regularisation): asking for uncertainties never makes a prediction fail and does not change the predictions. | C121_default_violated: C121 fails for all models with the default `regularization=None`: they predict but raise TypeError when asked for uncertainties."
  },
  {
   "property": "C124",
   "status": "partial",
   "theorems": [
    "CatLearn.Proc.C124_gradient_partial",
    "CatLearn.Proc.C124_regularisation_violated",
    "CatLearn.Proc.C124_log_scale_violated"
   ],
   "note": "C124_gradient_partial: C124 (`_partial`: hyperparameters that are not on a log scale, kernels of which the derivatives are right – see C47 – and not for the regularisation): the gradient given to the optimiser is the gradient of the loss. | C124_regularisation_violated: C124 fails for the regularisation, of which the covariance contains the square: at regularisation 1 the derivative of the loss is 1/2, the gradient given to the optimiser says 1/4. | C124_log_scale_violated: C124 fails for hyperparameters on a log scale: the derivatives are taken as if they were not."
  },
  {
   "property": "C126",
   "status": "partial",
   "theorems": [
    "CatLearn.Proc.C126_file_partial",
    "CatLearn.Proc.C126_no_regularisation_violated",
    "CatLearn.Proc.C126_log_scale_violated",
    "CatLearn.Proc.C126_scale_data_violated"
   ],
   "note": "C126_file_partial: C126 (`_partial`: at most ten kernels, regularised, without `scale_data` and `scale_optimizer`): whatever its history, a model written to an hdf5 file and read back makes the same predictions with the same uncertainties. | C126_no_regularisation_violated: C126 fails for models without regularisation, the default: they cannot be written. | C126_log_scale_violated: C126 fails with `scale_optimizer=True`: the logarithms of the hyperparameters are read as the hyperparameters. | C126_scale_data_violated: C126 fails with `scale_data=True`: the file holds the scaled data only. For a constant kernel the model predicts the mean of its targets everywhere, the one read from the file predicts 0."
  },
  {
   "property": "C127",
   "status": "partial",
   "theorems": [
    "CatLearn.MLMin.C127_partial",
    "CatLearn.MLMin.C127_violated"
   ],
   "note": "C127_partial: C127, part: when `run` reports that it did not converge, the counter has reached `steps`, the budget was not exceeded, and every evaluated structure except the last one had a force of at least `fmax`. Missing: the last one may satisfy the criterion (`C127_violated`). | C127_violated: C127 fails: the budget is tested before convergence, so a run whose last allowed evaluation has zero force is reported as not converged."
  },
  {
   "property": "C128",
   "status": "partial",
   "theorems": [
    "CatLearn.MLMin.C128_partial",
    "CatLearn.MLMin.C128_violated"
   ],
   "note": "C128_partial: C128, part: a new object lists Atoms objects with the geometries of `list_train`, and after a run the last listed object has the geometry of the last entry. Missing: the entries in between (`C128_violated`). | C128_violated: C128 fails: `list_atoms` holds the same Atoms object again and again, so after one evaluation its first entry shows the new geometry instead of the initial one."
  },
  {
   "property": "C129",
   "status": "partial",
   "theorems": [
    "CatLearn.MLMin.C129_partial",
    "CatLearn.MLMin.C129_violated"
   ],
   "note": "C129_partial: C129, part: a run whose kernel is `SQE_fixed`, `SQE` or `ARD_SQE`, or that starts from a single structure (whatever the kernel name), never fails with an undefined name. Missing: the documented name `SQE_opt`, which is not implemented (`C129_violated`). | C129_violated: C129 fails: with a kernel name that is documented but not implemented (`SQE_opt`) and a second known structure, the run stops with an undefined name."
  },
  {
   "property": "C130",
   "status": "partial",
   "theorems": [
    "CatLearn.MLMin.C130_partial",
    "CatLearn.MLMin.C130_violated"
   ],
   "note": "C130_partial: C130, part: if a run made at least one evaluation, or no previous calculations were given, then when it ends the caller's Atoms object has the geometry of the last evaluated structure, so after reported convergence it is the converged one. Missing: `C130_violated`. | C130_violated: C130 fails: if the last previous calculation is already converged, `run` reports convergence at once and leaves the caller's structure at its initial geometry, where the force is above `fmax`."
  },
  {
   "property": "C131",
   "status": "partial",
   "theorems": [
    "CatLearn.MLNEB.C131_partial",
    "CatLearn.MLNEB.C131_violated"
   ],
   "note": "C131_partial: C131, part: under `acq_2` and `acq_5`, when a call reports convergence, the structure whose forces passed the test is the interior image with the largest predicted energy plus uncertainty. Missing: the other rules (`C131_violated`). | C131_violated: C131 fails for `acq_1`, `acq_3` and `acq_4`: in an even iteration the most uncertain image is evaluated, and if its forces are small the calculation is reported converged although another image is higher."
  },
  {
   "property": "C132",
   "status": "partial",
   "theorems": [
    "CatLearn.MLNEB.C132_partial",
    "CatLearn.MLNEB.C132_violated"
   ],
   "note": "C132_partial: C132, part: a run appends to the geometries, energies and gradients together, and each new energy and gradient is the real calculator's answer at the new geometry. Missing: `list_max_abs_forces` (`C132_violated`). | C132_violated: C132 fails for the forces: the main loop never appends to `list_max_abs_forces`, so after any call that raised nothing it has fewer entries than there are evaluated structures, if it had one each before."
  },
  {
   "property": "C133",
   "status": "partial",
   "theorems": [
    "CatLearn.DB.C133_partial",
    "CatLearn.DB.C133_violated",
    "CatLearn.DB.C133_names",
    "CatLearn.DB.C133_names_missing"
   ],
   "note": "C133_partial: C133 (partial: the argument is a list of names, unlike the documentation, which asks for one string): `create_column` adds exactly the given columns, after the existing ones, filled with NULL, and keeps all other values; it succeeds iff the names are new and distinct. | C133_violated: C133 fails: with the documented string argument the table gets one column per character instead of the named column (and for a name with a repeated letter the call raises half way)."
  },
  {
   "property": "C134",
   "status": "proved",
   "theorems": [
    "CatLearn.DB.C134_keep",
    "CatLearn.DB.C134_entry",
    "CatLearn.DB.C134_errors"
   ],
   "note": "C134_keep: C134: entries never change what is stored. After any history, a further call of any of the three entry functions keeps every stored value; and a successful `fingerprint_entry` leaves the value that was stored for its pair, or else stores the value it was given, and changes no other pair. | C134_entry: C134: what a successful `fingerprint_entry` does. | C134_errors: C134: an entry for an unknown image or an unknown symbol raises (a TypeError in both cases), so every entry that returns is stored under an image and a symbol of the database."
  },
  {
   "property": "C135",
   "status": "partial",
   "theorems": [
    "CatLearn.DB.C135_partial",
    "CatLearn.DB.C135_violated"
   ],
   "note": "C135_partial: C135 (partial: the caller uses `unique_id`, or the two identifiers agree): after `image_entry(d)` values can be entered for the image. | C135_violated: C135 fails: the identifier that `image_entry` returns is not the one under which the image is stored; using it raises, for every database that does not hold it by accident."
  },
  {
   "property": "C136",
   "status": "partial",
   "theorems": [
    "CatLearn.Nb.C136_partial",
    "CatLearn.Nb.C136_violated"
   ],
   "note": "C136_partial: C136 (partial: the shells reach no further than 10000, the constant by which used distances are moved away): the entry for two different atoms is the number of the first of the requested shells that contains their distance, where shell `k` ends at `k` times the sum of radii and buffer; it is 0 iff no requested shell does. | C136_violated: C136 fails beyond that bound: with a user given buffer of 20000 two atoms at distance 1 are entered in the first and again in the second shell, and get the sum 3."
  },
  {
   "property": "C137",
   "status": "proved",
   "theorems": [
    "CatLearn.Nb.C137_full"
   ],
   "note": "C137_full: C137: with `max_neighbor='full'` the loop ends, for every geometry and every element mixture with positive sums of radii and buffers; the result is that of the call with the integer `N`, the smallest for which every pair of atoms (and every atom with itself) has a shell; so every pair of different atoms gets a shell."
  },
  {
   "property": "C138",
   "status": "partial",
   "theorems": [
    "CatLearn.Nb.C138_partial",
    "CatLearn.Nb.C138_isolated_violated",
    "CatLearn.Nb.C138_shell_violated"
   ],
   "note": "C138_partial: C138 (partial: the first shell; every atom has a neighbour): `connection_dict` has one entry per atom, in order; all entries have the same length, and each consists of the neighbours of the atom followed by -1s. | C138_isolated_violated: C138 fails: an atom without neighbours is missing in the dictionary, and if no atom has a neighbour the call raises. | C138_shell_violated: C138 fails: the shell number is ignored. For every structure the result for any shell is that of the first, for instance where no pair is in the second shell."
  },
  {
   "property": "C139",
   "status": "partial",
   "theorems": [
    "CatLearn.Nb.C139_partial",
    "CatLearn.Nb.C139_pair_violated",
    "CatLearn.Nb.C139_same_violated",
    "CatLearn.Nb.C139_monoxide_violated"
   ],
   "note": "C139_partial: C139 (partial: for two different elements of a structure made of these two only): the pair entry of level two is the number of bonds between them. | C139_pair_violated: C139 fails: with three elements the pair entry counts the bonds to all other elements. | C139_same_violated: C139 fails: the entry for bonds within an element is, for every structure, the sum of the coordination numbers of its atoms, which is the entry of level one once more. | C139_monoxide_violated: ... so that carbon monoxide has a C-C bond."
  },
  {
   "property": "C140",
   "status": "partial",
   "theorems": [
    "CatLearn.Nb.C140_partial",
    "CatLearn.Nb.C140_square_violated",
    "CatLearn.Nb.C140_violated",
    "CatLearn.Nb.C140_level_partial",
    "CatLearn.Nb.C140_level_violated"
   ],
   "note": "C140_partial: C140 (partial: all neighbours of the atom have the same coordination number as the atom): the value is the sum of the coordination numbers of the neighbours over 12. | C140_square_violated: C140 fails in general: for every binary matrix the value is the square of the coordination number of the atom itself over 12, independent of the coordination of its neighbours. | C140_violated: The outer atom of a chain of three has the neighbour with coordination 2, but gets 1/12. | C140_level_partial: C140, level three of the fingerprint (`_partial`: if every atom of the element only has neighbours with its own coordination number): the sum of the generalised coordination numbers of the atoms of the element. | C140_level_violated: C140, level three: for 0-1 matrices it is the sum of the squares of the coordination numbers over 12."
  },
  {
   "property": "C141",
   "status": "partial",
   "theorems": [
    "CatLearn.Nb.C141_partial",
    "CatLearn.Nb.C141_refused",
    "CatLearn.Nb.C141_wrap",
    "CatLearn.Nb.C141_cutoffs",
    "CatLearn.Nb.C141_violated",
    "CatLearn.Nb.C141_no_cutoffs_violated",
    "CatLearn.Nb.C141_multiple_violated"
   ],
   "note": "C141_partial: C141 (partial: the atoms carry no neighbour list, cutoffs are given): `ase_connectivity` marks the pairs of atoms one of which has a periodic image nearer to the other than the sum of their cutoffs; the matrix is symmetric. | C141_violated: C141 fails: for atoms with a stored neighbour list, which the documentation says is used, the call raises UnboundLocalError. | C141_no_cutoffs_violated: C141 fails: the documented default of no cutoffs is a TypeError, whatever the structure. | C141_multiple_violated: C141 fails: \"multiple connections are counted\" is not true: two atoms connected through several images have the entry 1, less than the number of their connections."
  },
  {
   "property": "C142",
   "status": "proved",
   "theorems": [
    "CatLearn.Feat.C142_types",
    "CatLearn.Feat.C142_stable"
   ],
   "note": "C142_types: C142: the attributes found by `normalize_features` (and by the first `return_vec`): `atom_types` lists the elements of the given structures and no others, in ascending order without repetition; `atom_len` is the size of the largest structure. | C142_stable: C142: the attributes are fixed by the first call: a later call on other structures returns the same generator, so that training and test features have the same columns."
  },
  {
   "property": "C143",
   "status": "partial",
   "theorems": [
    "CatLearn.Fpr.C143_partial",
    "CatLearn.Fpr.C143_violated"
   ],
   "note": "C143_partial: C143 (partial: every element is in `atom_types`, without repetitions, and every coordination number is within the bounds): `bag_element_cn` counts, for each element and each coordination number from `cn_min` to `cn_max`, the atoms of this element with this coordination number; the entries sum to the number of atoms. | C143_violated: C143 fails: an atom with a coordination number out of bounds, which the documented behaviour answers with NaN, is a KeyError when the structure has no `key_value_pairs`."
  },
  {
   "property": "C144",
   "status": "partial",
   "theorems": [
    "CatLearn.Fpr.C144_partial",
    "CatLearn.Fpr.C144_order_violated",
    "CatLearn.Fpr.C144_bounds_violated"
   ],
   "note": "C144_partial: C144 (partial: `atom_types` ascending; the bonded atoms have listed elements and coordination numbers within the bounds): every bond is counted once, in the entry of its two nodes (element, coordination number). | C144_order_violated: C144 fails for `atom_types` in another order: the bonds between different elements are lost. | C144_bounds_violated: C144 fails for a coordination number out of bounds: ValueError, where `bag_element_cn` returns NaN."
  },
  {
   "property": "C145",
   "status": "partial",
   "theorems": [
    "CatLearn.Slab.C145_identified",
    "CatLearn.Slab.C145_formula_refused",
    "CatLearn.Slab.C145_detect_partial",
    "CatLearn.Slab.C145_connectivity_violated",
    "CatLearn.Slab.C145_last_violated",
    "CatLearn.Slab.C145_tags",
    "CatLearn.Slab.C145_connectivity_partial",
    "CatLearn.Slab.C145_elements",
    "CatLearn.Slab.C145_species"
   ],
   "note": "C145_detect_partial: C145 (partial: the species does not share elements with the slab): the adsorbate is detected by its formula. | C145_connectivity_violated: C145 fails for the search by connectivity: for C2O2 on a carbide the two oxygen atoms are returned twice and no carbon atom; for OH on an oxide with an isolated hydrogen atom only the hydrogen atom is returned. The final check that should refuse this compares `None` with `None`. | C145_last_violated: C145 fails for the last atoms when the structure has fewer atoms than the species: an atom is counted twice. | C145_connectivity_partial: C145 (partial: nothing says that the whole species is found, see `C145_connectivity_violated`): by connectivity, every atom returned exists and is of an element of the species; the atom is of an element that does not occur in the slab or is bonded to such an atom; and all atoms of these elements are returned."
  },
  {
   "property": "C146",
   "status": "partial",
   "theorems": [
    "CatLearn.Slab.C146_tags",
    "CatLearn.Slab.C146_constraints",
    "CatLearn.Slab.C146_coordination",
    "CatLearn.Slab.C146_layers_partial",
    "CatLearn.Slab.C146_layers_violated",
    "CatLearn.Slab.C146_connectivity_violated",
    "CatLearn.Slab.C146_choice"
   ],
   "note": "C146_layers_partial: C146, layers (partial: the slab fills the `m` lowest layers and the adsorbate is above): termination and subsurface are the top layer and the one below, bulk all slab atoms below the top. | C146_layers_violated: C146 fails for an adsorbate below the surface: here on the underside it is reported as bulk, and the two topmost slab layers as termination. | C146_connectivity_violated: C146 fails for slabs without tags, without exactly one constraint and without the key `layers`: there is no way to detect the termination."
  },
  {
   "property": "C147",
   "status": "proved",
   "theorems": [
    "CatLearn.Slab.C147_partition"
   ],
   "note": "C147_partition: C147: the cations and anions partition the atoms by element, and there is an anion; without one the call is a ValueError."
  },
  {
   "property": "C148",
   "status": "partial",
   "theorems": [
    "CatLearn.Props.C148_n_outer_partial",
    "CatLearn.Props.C148_n_outer_violated"
   ],
   "note": "C148_n_outer_partial: C148 (partial): for a configuration written with a noble gas core, whatever the core and the shells, `n_outer` returns the number of electrons outside the core, and those in s, p, d and f shells. | C148_n_outer_violated: C148 is violated: in a configuration without a core (`1s` of hydrogen, `1s2` of helium) the first shell is taken for the core, and the number of outer electrons is always too small; for hydrogen and helium it is 0."
  },
  {
   "property": "C149",
   "status": "partial",
   "theorems": [
    "CatLearn.Props.C149_named_columns_partial",
    "CatLearn.Props.C149_columns_match_labels_partial",
    "CatLearn.Props.C149_columns_match_labels_violated",
    "CatLearn.Props.C149_no_oxistates_violated"
   ],
   "note": "C149_named_columns_partial: C149 (partial): under the conditions of `C149_columns_match_labels_partial`, the columns of every row are, parameter by parameter, the smallest, middle and largest oxidation state under `oxi_min`, `oxi_med`, `oxi_max`; indicators of the block under `sblock`, `pblock`, `dblock`, `fblock`; the outer electrons under `ne_outer`, `ne_s`, `ne_p`, `ne_d`, `ne_f`; the first ionisation energy under `ionenergy`; and any other parameter under its own name. | C149_columns_match_labels_partial: C149 (partial): if the parameters with several columns stand at the end of `params` and the data of the elements are complete, `list_mendeleev_params` gives one row per atom, in order, and in every row the value in each column is the one announced by the label `make_labels` gives to that column. | C149_columns_match_labels_violated: C149 is violated: if a parameter with its own expansion is named before an ordinary one, every call for at least one atom raises an exception. | C149_no_oxistates_violated: C149 is violated: for an element without oxidation states (helium, neon, argon, radon) or without an entry for them (93 to 103), asking for the oxidation states raises an exception instead of giving NaN."
  },
  {
   "property": "C150",
   "status": "partial",
   "theorems": [
    "CatLearn.Props.C150_formula_weights_exact",
    "CatLearn.Props.C150_formula_weights_violated",
    "CatLearn.Props.C150_iron_oxide_violated",
    "CatLearn.Props.C150_formula_weights_partial",
    "CatLearn.Props.C150_stat_partial",
    "CatLearn.Props.C150_stat_shape"
   ],
   "note": "C150_formula_weights_violated: C150 is violated: when every symbol carries a coefficient, the weights are the coefficients moved by one place: the first element gets the last coefficient. | C150_iron_oxide_violated: `Fe2O3` is read as three iron for two oxygen, and `FeCoO2` raises IndexError. | C150_formula_weights_partial: C150 (partial): a formula in which at most one coefficient is written, on the first or on the second symbol (`H2O`, `FeO2`), is read correctly, whatever the number of symbols. | C150_stat_partial: C150 (partial, the same formulas): `stat_mendeleev_params` returns the lines of `list_mendeleev_params` for the elements in the order of the formula, and their coefficients; it raises exactly what `list_mendeleev_params` raises."
  },
  {
   "property": "C151",
   "status": "partial",
   "theorems": [
    "CatLearn.Props.C151_formal_charges_exact",
    "CatLearn.Props.C151_neutral_partial",
    "CatLearn.Props.C151_neutral_violated"
   ],
   "note": "C151_neutral_partial: C151 (partial): the charges of a structure add up to zero if every ion has more than one bond, or has one bond and the charge ±1. | C151_neutral_violated: C151 is violated: as soon as one oxide ion (charge below -1) has a single bond, or none, the charges of the structure do not add up to zero: their sum is negative."
  },
  {
   "property": "C152",
   "status": "proved",
   "theorems": [
    "CatLearn.Props.C152_signs",
    "CatLearn.Props.C152_order"
   ],
   "note": "C152_signs: C152. For a negative ion and a connectivity without negative entries: an atom of another element has a charge of at least zero, and zero exactly if it is bound to no ion; an ion that is bound to no ion has exactly its charge. | C152_order: C152. The charges belong to the atoms: with the atoms in another order the same charges come in that order."
  },
  {
   "property": "C153",
   "status": "partial",
   "theorems": [
    "CatLearn.Props.C153_hash_violated",
    "CatLearn.Props.C153_order_partial",
    "CatLearn.Props.C153_same_place_violated"
   ],
   "note": "C153_hash_violated: C153 is violated with Python 3, where `hashlib.md5` refuses text: there is no hash for any structure, and the atoms of the caller have been moved into the cell nevertheless. | C153_order_partial: C153 (partial; with Python 2, where there is a hash): listing the atoms in another order does not change the hash, provided that no two atoms are at the same place. | C153_same_place_violated: Two atoms at the same place (up to the wrapping): the order matters."
  },
  {
   "property": "C154",
   "status": "partial",
   "theorems": [
    "CatLearn.Props.C154_distinguishes_violated",
    "CatLearn.Props.C154_concatenation_violated",
    "CatLearn.Props.C154_distinguishes_partial"
   ],
   "note": "C154_distinguishes_violated: C154 is violated (also where there is a hash): in a structure of at least 334 atoms, all atoms but the lowest and the highest can be moved without changing the hash. | C154_concatenation_violated: C154 is violated by small structures as well: coordinates are written one after the other without separator, so that an atom at (1, 12, 0) and the same atom at (11, 2, 0) give the same hash, in every cell that contains both. | C154_distinguishes_partial: C154 (partial). Two structures in the same cell with the same elements in the order of their sorted positions get different strings exactly if the texts of their rounded, sorted positions differ. Missing: that the texts differ whenever the positions do (see the violations)."
  },
  {
   "property": "C155",
   "status": "proved",
   "theorems": [
    "CatLearn.Props.C155_penalty_close",
    "CatLearn.Props.C155_penalty_far",
    "CatLearn.Props.C155_penalty_no_data"
   ],
   "note": "C155_penalty_close: C155, points too close: with a nonempty training set every test point gets a penalty, in order. It lies between 0 and `c d²`; it is positive exactly if a training point is nearer than `d`; it is `c d²` exactly for a point that is already in the training set; and of two points the one with the nearer training point never gets less. | C155_penalty_far: C155, points too far: the penalty is at least 0, positive exactly if no training point is within `d`, and of two points the one farther from its nearest training point never gets less. | C155_penalty_no_data: C155. Without training data there are no penalties, but an error."
  },
  {
   "property": "C156",
   "status": "partial",
   "theorems": [
    "CatLearn.Props.C156_data_partial",
    "CatLearn.Props.C156_last_image_violated",
    "CatLearn.Props.C156_last_image_partial",
    "CatLearn.Props.C156_single_image_violated",
    "CatLearn.Props.C156_refused_partial",
    "CatLearn.Props.C156_misaligned_violated"
   ],
   "note": "C156_data_partial: C156 (partial): for two or more images with the same number of atoms, row `k` of the training data, targets and gradients are the flattened positions, the energy and the negative forces of image `k`; all images are returned in order. | C156_last_image_violated: C156 is violated: `last_image` is the second image, so with three or more different images it is not the last. | C156_last_image_partial: C156 (partial): with exactly two images `last_image` is the last one. | C156_single_image_violated: C156 is violated: a trajectory of a single image cannot be converted. | C156_refused_partial: C156 (partial): different numbers of atoms are refused when their total does not happen to be that of images of the first size. | C156_misaligned_violated: C156 is violated: otherwise they are accepted silently and rows mix the atoms of different images: the second row here holds the only atom of the second image and the first atom of the third."
  },
  {
   "property": "C157",
   "status": "proved",
   "theorems": [
    "CatLearn.Props.C157_round_trip",
    "CatLearn.Props.C157_array_to_ase",
    "CatLearn.Props.C157_array_to_atoms"
   ],
   "note": "C157_round_trip: C157. Flattened positions are read back as they were. | C157_array_to_ase: C157. An array of `3 n` numbers becomes `n` positions which flatten to the same array; any other length is refused. | C157_array_to_atoms: C157. The same without the number of atoms: any array whose length is a multiple of 3."
  },
  {
   "property": "C158",
   "status": "partial",
   "theorems": [
    "CatLearn.Props.C158_group_statistics_partial",
    "CatLearn.Props.C158_order",
    "CatLearn.Props.C158_order_of_atoms",
    "CatLearn.Props.C158_ligand_counts",
    "CatLearn.Props.C158_empty_group_violated",
    "CatLearn.Props.C158_term_bulk"
   ],
   "note": "C158_group_statistics_partial: C158 (partial): for a nonempty group of atoms with complete data, the parameters with several columns at the end of the list, each of the five statistics gives one number per label, and the number in a column is the statistic of the values the group's atoms have for that label; atoms whose value is unknown do not count. | C158_empty_group_violated: C158 is violated for an empty group (a structure without site or cation atoms): the minimum and the maximum raise ValueError, although the mean and the median are returned as missing values and the sums as zeros."
  },
  {
   "property": "C159",
   "status": "partial",
   "theorems": [
    "CatLearn.Props.C159_bulk_names_partial",
    "CatLearn.Props.C159_std_values",
    "CatLearn.Props.C159_extra_params_violated",
    "CatLearn.Props.C159_duplicate_name_violated",
    "CatLearn.Props.C159_modulus_violated"
   ],
   "note": "C159_bulk_names_partial: C159 (partial): with the default extra parameters `bulk_summation`, `bulk_average` and `bulk_std` return as many numbers as names, for every structure they accept. | C159_extra_params_violated: C159 is violated: the names are fixed, so for extra parameters with another number of columns the numbers and the names never match, and nothing is raised. | C159_duplicate_name_violated: C159 is violated: `bulk_average` and `bulk_std` both call a feature `en_gordy`, so the names of the two default fingerprints together are not distinct. | C159_modulus_violated: C159 is violated: the default list asks for `dft_std_modulus`, a parameter the elemental data do not have, so that column of the averages is missing for every structure (and 0 in the sums)."
  },
  {
   "property": "C160",
   "status": "proved",
   "theorems": [
    "CatLearn.Props.C160_supercell"
   ],
   "note": "C160_supercell: C160: repeating the unit cell of a structure `k` times multiplies `bulk_summation` by `k` and leaves `bulk_average` and `bulk_std` unchanged; likewise the mean, minimum, maximum and median over the atoms do not change."
  },
  {
   "property": "C161",
   "status": "proved",
   "theorems": [
    "CatLearn.Props.C161_radius",
    "CatLearn.Props.C161_strain"
   ],
   "note": "C161_radius: C161: the radius of an element is its atomic radius in Ångström, else its covalent radius, else the radius of ASE; an element outside the table raises KeyError. | C161_strain: C161: for nonempty groups of known elements with positive radii the fingerprint holds the relative difference of the mean radius of the site, and of the termination, to that of the bulk. So it is zero iff the mean radii agree, positive iff the site (termination) atoms are larger, always above -1, and it does not change when all radii are measured in another unit of length. An empty site gives a missing value, not an exception."
  },
  {
   "property": "C162",
   "status": "partial",
   "theorems": [
    "CatLearn.Props.C162_conv0_partial",
    "CatLearn.Props.C162_conv1_partial",
    "CatLearn.Props.C162_wrong_atom_violated",
    "CatLearn.Props.C162_order_of_atoms_violated",
    "CatLearn.Props.C162_unknown_value_violated",
    "CatLearn.Props.C162_negative_violated",
    "CatLearn.Props.C162_names"
   ],
   "note": "C162_conv0_partial: C162 (partial): if all values are known, the first half of the fingerprint is, per column, the root of the sum of squares over the group divided by the number of its atoms. | C162_conv1_partial: C162 (partial): if the group consists of the first `m` atoms, in order, all values are known and the sum is not negative, the second half of the fingerprint is the root of the sum of the products of the values of neighbouring atoms (the first one in the group), divided by the number of atoms of the group. | C162_wrong_atom_violated: C162 is violated: for a group of one atom the second half multiplies by the value of the first atom of the structure instead of the value of the atom of the group. | C162_order_of_atoms_violated: C162 is violated: the order of the atoms in the structure changes the fingerprint. Atoms with the values 1, 2, 3, the last two bonded, the group being the atom with the value 3: the product over the bond is 6, the code gives the root of 2, and the root of 6 if the atoms are listed in the opposite order. | C162_unknown_value_violated: C162 is violated: a value that is unknown for one atom anywhere in the structure, bonded to the group or not, makes the second half of that column missing. | C162_negative_violated: C162 is violated: two bonded atoms with values of opposite sign (electron affinities, heats of formation) have no second-half value."
  },
  {
   "property": "C163",
   "status": "partial",
   "theorems": [
    "CatLearn.Props.C163_bag_edges_ads_partial",
    "CatLearn.Props.C163_bag_edges_ads_order",
    "CatLearn.Props.C163_bag_edges_chemi_violated",
    "CatLearn.Props.C163_bag_edges_chemi_partial",
    "CatLearn.Props.C163_bag_edges_all_partial",
    "CatLearn.Props.C163_bag_edges_all_lost_violated",
    "CatLearn.Props.C163_bag_edges_all_double_violated",
    "CatLearn.Props.C163_bag_edges_all_length_violated"
   ],
   "note": "C163_bag_edges_ads_partial: C163 (partial: `atom_types` ascending and complete): `bag_edges_ads` counts every bond between two atoms outside the slab once, in the entry of its two elements, and nothing else. | C163_bag_edges_chemi_violated: C163 is violated: `bag_edges_chemi` is documented to count only bonds within the adsorbate and between adsorbate and surface, but it counts every bond of the structure, whatever the slab atoms are: it is `bag_edges`. | C163_bag_edges_chemi_partial: C163 (partial): if no two slab atoms are bonded, `bag_edges_chemi` counts, once each, the bonds with at least one adsorbate atom. | C163_bag_edges_all_partial: C163, what `bag_edges_all` computes (no repeated types, all elements listed): the entry of adsorbate element `ta` and element `tb` counts the bonds of the `k`-th adsorbate atom to atoms with an index above `k`. | C163_bag_edges_all_lost_violated: C163 is violated: `bag_edges_all` loses bonds. Carbon monoxide (atoms 1, 2) on a copper atom (atom 0): the entry for carbon and copper is 0, although carbon is bonded to copper; with copper listed last it is 1. | C163_bag_edges_all_double_violated: C163 is violated: with the adsorbate behind the slab, `bag_edges_all` counts bonds within the adsorbate twice. Oxygen (atoms 2, 3) above two copper atoms: the single O-O bond is counted twice. | C163_bag_edges_all_length_violated: C163 is violated: the documented length of `bag_edges_all` is the product of the numbers of types; the vector is shorter as soon as there are two types of adsorbate atoms."
  },
  {
   "property": "C164",
   "status": "partial",
   "theorems": [
    "CatLearn.Props.C164_bag_cn_partial",
    "CatLearn.Props.C164_labels_violated",
    "CatLearn.Props.C164_index_violated"
   ],
   "note": "C164_bag_cn_partial: C164 (partial): entry `k` of `bag_cn` is the number of distinct neighbours of the site that have `k` neighbours in the slab; together the entries count every neighbour of the site once. | C164_labels_violated: C164 is violated: the entries are named from `count_3nn_site` on, but entry `k` counts coordination number `k`. A site neighbour with `k` slab neighbours is counted under the name of coordination number `k + 3`. | C164_index_violated: C164 is violated at the upper end: a neighbour of the site with 28 or more slab neighbours raises IndexError, although there are names up to `count_30nn_site`."
  },
  {
   "property": "C165",
   "status": "partial",
   "theorems": [
    "CatLearn.Props.C165_generalized_cn_partial",
    "CatLearn.Props.C165_refused",
    "CatLearn.Props.C165_gcn_violated",
    "CatLearn.Props.C165_gcn_ads_violated"
   ],
   "note": "C165_generalized_cn_partial: C165, what `generalized_cn` returns for a site of one to five atoms with neighbours and at least one chemisorbed atom (partial: the third number is not the generalized coordination number of the cited article, the last one is wrong, see below): the mean number of slab neighbours of the site atoms; the number of distinct neighbours of the site; the sum of the numbers of slab neighbours of these, divided by 12, 18, 22, 26 or 30 (for one to five site atoms) and by their number; the mean number of neighbours of the chemisorbed atoms; and a product for the last chemisorbed atom and the atom with index 1. | C165_gcn_violated: C165 is violated: the generalized coordination number of Calle-Vallejo et al. is the sum of the coordination numbers of the neighbours over `cn_max`. The function divides by the number of neighbours once more, so the value is too small as soon as the site has two neighbours and one of them has a neighbour. | C165_gcn_ads_violated: C165 is violated: for carbon (atom 3, bonded to a copper atom with three neighbours and to oxygen with one) the generalized coordination number is (3 + 1) / 12 = 1/3. When oxygen is listed as the atom with index 1 the function returns 1/6: it uses the connectivity (1) where the index of the neighbour belongs."
  },
  {
   "property": "C166",
   "status": "proved",
   "theorems": [
    "CatLearn.Props.C166_bag_atoms_ads",
    "CatLearn.Props.C166_fragment",
    "CatLearn.Props.C166_db_size"
   ],
   "note": "C166_bag_atoms_ads: C166: `bag_atoms_ads` counts the adsorbate atoms by element, in the order of `atom_types`; the total is the number of adsorbate atoms. It raises ValueError iff an adsorbate element is not among the types. | C166_fragment: C166: `count_chemisorbed_fragment` returns, per element of `atom_types`, the number of bonds between an atom of that element and a chemisorbed atom (seen from the chemisorbed atom), then the number of bonds between the site and the chemisorbed atoms, then the number of site atoms. | C166_db_size: C166: `db_size` returns the stored number of layers, the number of termination atoms and the coverage, the stored number of adsorbates per termination atom; what is not stored is missing, and without termination atoms the coverage is not a number."
  },
  {
   "property": "C167",
   "status": "partial",
   "theorems": [
    "CatLearn.Props.C167_en_difference_partial",
    "CatLearn.Props.C167_zero_iff",
    "CatLearn.Props.C167_order",
    "CatLearn.Props.C167_twice_violated",
    "CatLearn.Props.C167_active_violated",
    "CatLearn.Props.C167_unknown_violated"
   ],
   "note": "C167_en_difference_partial: C167 (partial, the bonds within the adsorbate count twice, see below): with known electronegativities each of the eight entries of `en_difference_chemi` is the sum over the bonds between the chemisorbed atoms and the site of the squared difference. | C167_twice_violated: C167 is violated: with a symmetric connectivity `en_difference_ads` is twice the sum over the bonds within the adsorbate. | C167_active_violated: C167 is violated: in `en_difference_active` the bonds within the adsorbate weigh twice as much as the bonds to the site. | C167_unknown_violated: C167 is violated: one atom with an unknown electronegativity, bonded or not, makes the entry nan."
  },
  {
   "property": "C168",
   "status": "partial",
   "theorems": [
    "CatLearn.Props.C168_charges_partial",
    "CatLearn.Props.C168_total",
    "CatLearn.Props.C168_neutral",
    "CatLearn.Props.C168_neutral_violated",
    "CatLearn.Props.C168_excess",
    "CatLearn.Props.C168_transferred",
    "CatLearn.Props.C168_no_ion",
    "CatLearn.Props.C168_oxistates_violated"
   ],
   "note": "C168_charges_partial: C168, the charges (partial, a slab anion without neighbours is left out of the balance, see below): every slab anion gets the charge `q`, and every atom gets `-q` times the share of its bonds in each anion (Pauling's rule), an anion in the slab bonded to other anions included. | C168_neutral_violated: C168 is violated: a slab anion without neighbours leaves the structure with a net charge. | C168_oxistates_violated: C168 is violated: a slab element without known oxidation states makes the function raise, although the other fingerprints give nan for what the table does not know."
  },
  {
   "property": "C169",
   "status": "partial",
   "theorems": [
    "CatLearn.Props.C169_entries_partial",
    "CatLearn.Props.C169_own_neighbour_violated",
    "CatLearn.Props.C169_unknown_element",
    "CatLearn.Props.C169_first_structure_violated",
    "CatLearn.Props.C169_order_of_atoms"
   ],
   "note": "C169_entries_partial: C169 (partial: every atom counts as its own neighbour, see below). For different types that contain all elements of the structure the vector has one entry per name, and the entry at row `r`, column `s` times the number of atoms of the row's element is the number of ordered pairs of different atoms of the two elements closer than `nndist`, plus, on the diagonal, the number of atoms of the element. | C169_own_neighbour_violated: C169 is violated: in a structure without any two atoms within `nndist` of each other every element present still has one nearest neighbour of its own kind. | C169_first_structure_violated: C169: so `atom_types`, once set by the first structure, makes every later structure with another element fail; a generator that has seen a copper particle cannot describe a gold particle."
  },
  {
   "property": "C170",
   "status": "partial",
   "theorems": [
    "CatLearn.Props.C170_entries_partial",
    "CatLearn.Props.C170_max_bonds_violated",
    "CatLearn.Props.C170_thirteen_violated",
    "CatLearn.Props.C170_length_violated",
    "CatLearn.Props.C170_distribution_changes_structure_violated"
   ],
   "note": "C170_entries_partial: C170 (partial: atoms with more than twelve neighbours are left out, see below). If every atom with one to twelve neighbours has fewer than `max_bonds` of them, as with the default value 13, there is one number per coordination number and ordered pair of elements of the structure: the number of ordered pairs of bonded atoms of these elements, the first of them with this coordination number. | C170_max_bonds_violated: C170 is violated: `max_bonds` is said to be the highest number of bonds counted, but an atom with `max_bonds` (at most twelve) neighbours raises IndexError: twelve, the documented default, fails for the atoms of a close-packed bulk. | C170_thirteen_violated: C170 is violated: if every atom has more than twelve neighbours nothing is counted, for every value of `max_bonds`. | C170_length_violated: C170 is violated: the vector of a structure with one element and that of a structure with two elements have different lengths, whatever `atom_types` says; and there are no names. | C170_distribution_changes_structure_violated: C170, `distribution_vec`: computing the fingerprint changes the structure it is given. The cell is replaced by a cube (so periodic neighbours are lost for all later fingerprints), the positions are shifted; the distances within the structure are kept."
  },
  {
   "property": "C171",
   "status": "partial",
   "theorems": [
    "CatLearn.Props.C171_default_sets_partial",
    "CatLearn.Props.C171_fragment_violated"
   ],
   "note": "C171_default_sets_partial: C171 (partial): a data type that is not a key raises ValueError; the lists of the other keys are returned in their order if the generator has all of their functions. | C171_fragment_violated: C171 is violated: a comma is missing in the default list for molecules, so the default set for fragments can never be obtained from a generator, which has no function called `bag_elementsbag_edges`."
  },
  {
   "property": "C172",
   "status": "proved",
   "theorems": [
    "CatLearn.Props.C172_rows",
    "CatLearn.Props.C172_occurrences",
    "CatLearn.Props.C172_types",
    "CatLearn.Props.C172_empty"
   ],
   "note": "C172_rows: C172: the matrix has one row per structure and ordered pair of its atoms, structure by structure, in row-major order; the row holds their distance, how many of the two atoms are of each type, and their atomic numbers. | C172_occurrences: C172: with the types taken from the data the occurrences in a row add up to two; an element missing from a given list of types is left out without notice. | C172_types: C172: the types taken from the data are the elements of all structures, ascending, so the sum is always two. | C172_empty: C172: an empty list of structures raises ValueError."
  },
  {
   "property": "C173",
   "status": "partial",
   "theorems": [
    "CatLearn.Props.C173_process_partial",
    "CatLearn.Props.C173_transform",
    "CatLearn.Props.C173_refused",
    "CatLearn.Props.C173_missing_target_violated",
    "CatLearn.Props.C173_all_eliminated_violated",
    "CatLearn.Props.C173_failed_process_violated"
   ],
   "note": "C173_process_partial: C173 (`_partial`: every target is a number): `process` keeps exactly the columns that are finite in every training row and vary (beyond the tolerance of `np.isclose`), in order; training and test matrix go through the same affine map, every training entry that comes out is a number, every column that comes out has mean 0 and variance 1, no row is lost, and the targets are returned. | C173_missing_target_violated: C173 fails when a target is missing: its row stays, with the missing target; a feature that is missing in that row only is kept (the row is ignored when columns are judged) and comes out missing in every row, for any numbers in the good rows. | C173_all_eliminated_violated: C173 fails when no feature is left: constant features are all eliminated and no error is raised (\"All features has been eliminated\" is only raised for a matrix without rows); the result has rows without entries. | C173_failed_process_violated: C173 fails after a `process` that raises: the object has the new columns but the old offsets and scales, so that every `transform`, possible before, now raises ValueError."
  },
  {
   "property": "C174",
   "status": "partial",
   "theorems": [
    "CatLearn.Props.C174_unit_length",
    "CatLearn.Props.C174_prepared_partial",
    "CatLearn.Props.C174_laplacian_violated",
    "CatLearn.Props.C174_all_violated",
    "CatLearn.Props.C174_no_features",
    "CatLearn.Props.C174_after_process_partial"
   ],
   "note": "C174_prepared_partial: C174 (`_partial`: the Laplacian kernel does not follow `dimension`, see `C174_laplacian_violated`): both default kernel lists are accepted by `prepare_kernels` whenever the default length scale is positive, and have the documented kernels in order, with one width or slope for 'single' and one for each feature for 'features'. | C174_laplacian_violated: C174 fails for the general kernel list: the Laplacian kernel has one width for each feature also when a single parameter is asked for. | C174_all_violated: C174 fails for the documented dimension 'all' (as for every value but 'single' and 'features'): AssertionError. | C174_after_process_partial: C174 (`_partial`: every target is a number, `kernel='smooth'`): from raw data to the kernel of the model. If at least one feature survives, the smooth kernel list on the processed data is accepted and has unit widths."
  },
  {
   "property": "C175",
   "status": "partial",
   "theorems": [
    "CatLearn.Graph.C175_sum_partial",
    "CatLearn.Graph.C175_first_shell_partial",
    "CatLearn.Graph.C175_numbering",
    "CatLearn.Graph.C175_refused",
    "CatLearn.Graph.C175_mean_violated",
    "CatLearn.Graph.C175_isolated_violated",
    "CatLearn.Graph.C175_missing_violated"
   ],
   "note": "C175_sum_partial: C175 (partial: the table has the property for every element of the structure, and at least two atoms are neighbours): the fingerprint has `atom_len` entries for each parameter; those of a parameter are, in descending order, the sums over the neighbours of each atom, weighted by the inverse of the shell, and zeros up to `atom_len`. | C175_first_shell_partial: C175 (partial: as above, and with one shell): the sums are plain sums over the atoms within reach of the radii and buffers. | C175_mean_violated: C175 fails for the mean: every entry is the sum over the neighbours divided by `atom_len`, the length of the padding, not by the number of neighbours. A property that is `x` for all atoms has mean `x` times the number of neighbours over `atom_len`. | C175_isolated_violated: C175 fails when the structure has no neighbours, for instance a single atom: the entries of all atoms are NaN. | C175_missing_violated: C175 fails when the table lacks the property for one element of the structure: all entries of the parameter are NaN, also those of atoms that are not its neighbours and of the padding."
  },
  {
   "property": "C176",
   "status": "partial",
   "theorems": [
    "CatLearn.Catapp.C176_length",
    "CatLearn.Catapp.C176_two_metals_partial",
    "CatLearn.Catapp.C176_pure",
    "CatLearn.Catapp.C176_tie_violated",
    "CatLearn.Catapp.C176_site_violated",
    "CatLearn.Catapp.C176_concentration_violated",
    "CatLearn.Catapp.C176_refused",
    "CatLearn.Catapp.C176_facet",
    "CatLearn.Catapp.C176_facet_distinct"
   ],
   "note": "C176_two_metals_partial: C176 (partial: two elements, one of them more frequent): the first block is the more frequent element, the second the other one, the third their sum, then concentration, facet and site 2; the order of the atoms does not matter. | C176_tie_violated: C176 fails for two elements that are equally frequent: the fingerprint depends on the numbering of the atoms, for all elements with different data. | C176_site_violated: C176 fails for the site: the code 3 (an atom of the second element) is never returned, since the first element is by definition the most frequent one of the same atoms. | C176_concentration_violated: C176 fails for the concentration: every composition written with the digit 3 counts as A3B, also a pure metal."
  },
  {
   "property": "C177",
   "status": "partial",
   "theorems": [
    "CatLearn.Api.C177_slots",
    "CatLearn.Api.C177_not_extended",
    "CatLearn.Api.C177_neighborlist",
    "CatLearn.Api.C177_dtype",
    "CatLearn.Api.C177_stale_violated",
    "CatLearn.Api.C177_images_connectivity"
   ],
   "note": "C177_stale_violated: C177 fails after the atoms move: whenever the lists of two geometries differ, `get_neighborlist` of a structure moved from one to the other still returns the list of the old geometry."
  },
  {
   "property": "C178",
   "status": "partial",
   "theorems": [
    "CatLearn.Api.C178_round_trip",
    "CatLearn.Api.C178_identity",
    "CatLearn.Api.C178_diagonal_violated",
    "CatLearn.Api.C178_cutoffs_violated",
    "CatLearn.Api.C178_multiple_violated",
    "CatLearn.Api.C178_refused"
   ],
   "note": "C178_diagonal_violated: C178: the atomic numbers are read off the diagonal of the adjacency matrix, unless an atom is its own neighbour (through the periodic boundary), when the number is one too large. | C178_cutoffs_violated: C178 fails for cutoffs when a neighbour list is stored: they are ignored. | C178_multiple_violated: C178 fails for connectivity matrices that count bonds (as `ase_connectivity` gives them for small cells): a pair with two bonds is not in the neighbour list."
  },
  {
   "property": "C179",
   "status": "partial",
   "theorems": [
    "CatLearn.Curve.C179_kept",
    "CatLearn.Curve.C179_levels",
    "CatLearn.Curve.C179_decreasing_violated",
    "CatLearn.Curve.C179_order",
    "CatLearn.Curve.C179_spread",
    "CatLearn.Curve.C179_mean",
    "CatLearn.Curve.C179_single_violated"
   ],
   "note": "C179_decreasing_violated: C179 fails for results in order of decreasing size: they all become a single point, whatever their sizes. | C179_single_violated: C179 fails for a level with a single result: its spread is nan, or an exception for python floats."
  },
  {
   "property": "C180",
   "status": "partial",
   "theorems": [
    "CatLearn.Curve.C180_sizes",
    "CatLearn.Curve.C180_too_few_violated",
    "CatLearn.Curve.C180_endless_violated",
    "CatLearn.Curve.C180_ends_partial",
    "CatLearn.Curve.C180_found"
   ],
   "note": "C180_too_few_violated: C180: if lasso never keeps as many features as the smallest number asked for, the selection ends in an `IndexError` and not in an empty answer (for example for a target without variation). | C180_endless_violated: C180 fails: the search never ends if lasso keeps more features than wanted only without regularisation and fewer at every positive alpha (in exact arithmetic; the interval shrinks to a third in every pass). | C180_ends_partial: C180: the selection ends, without an exception, if there is a positive alpha up to which lasso keeps more features than any number asked for. What is missing for the full claim is `C180_too_few_violated` and `C180_endless_violated`; numbers of features that lasso jumps over are left out of the answer."
  },
  {
   "property": "C181",
   "status": "partial",
   "theorems": [
    "CatLearn.Curve.C181_pairs",
    "CatLearn.Curve.C181_coefficients_partial",
    "CatLearn.Curve.C181_stale_violated"
   ],
   "note": "C181_coefficients_partial: C181, what holds: the errors of the subset treated first, and the first error of every other subset, belong to the model trained on that subset. | C181_stale_violated: C181 fails: every later subset of a level with at least four subsets has errors computed with the coefficients of the very first model of the run (`result[0][4]`), not with its own."
  },
  {
   "property": "C182",
   "status": "partial",
   "theorems": [
    "CatLearn.CurveScale.C182_target_units",
    "CatLearn.CurveScale.C182_rms",
    "CatLearn.CurveScale.C182_feature_units_partial",
    "CatLearn.CurveScale.C182_constant_violated",
    "CatLearn.CurveScale.C182_global_normal",
    "CatLearn.CurveScale.C182_global_standard_violated",
    "CatLearn.CurveScale.C182_given_violated"
   ],
   "note": "C182_feature_units_partial: C182: for scaled data the error does not depend on the units of the features: every column may be changed to `a * x + b` with its own positive `a`, provided it is not constant in the training data. For a constant column see `C182_constant_violated`. | C182_constant_violated: C182 fails for a feature without variation in the training data: the test data keep its unit, so that the scaled test data change with the unit (here the only training value is 0, the test value 1 or, in the other unit, `a`). | C182_global_standard_violated: C182 fails for the global scaling with standardisation: the features of the training set come back as they were, so that a column of all the data whose mean is not zero still has that mean. | C182_given_violated: C182 fails if scale and offset of the targets are given to `scaling_data`: the targets come back unscaled, while the error is computed as if the model spoke of scaled targets."
  },
  {
   "property": "C122",
   "status": "partial",
   "theorems": [
    "CatLearn.FixedBasis.C122_basis_exact_partial",
    "CatLearn.FixedBasis.C122_training_points",
    "CatLearn.FixedBasis.C122_dependent_basis",
    "CatLearn.FixedBasis.C122_variance",
    "CatLearn.FixedBasis.C122_scaled_violated"
   ],
   "note": "C122_basis_exact_partial: C122: without scaling of the data, a part of the targets that is a combination of the basis functions is continued exactly: adding `H γ` to the training targets adds `Hs γ` to the predictions and leaves the covariance as it is. | C122_scaled_violated: C122 fails with scaling of the data: only one of the two parts of the prediction is transformed back. The result differs from the prediction in the original units by `(1 - s)` times the part of the basis, where `s` is the deviation of the targets."
  },
  {
   "property": "C183",
   "status": "partial",
   "theorems": [
    "CatLearn.Sensitivity.C183_features",
    "CatLearn.Sensitivity.C183_least_sensitive",
    "CatLearn.Sensitivity.C183_widths",
    "CatLearn.Sensitivity.C183_no_error",
    "CatLearn.Sensitivity.C183_second_run_violated",
    "CatLearn.Sensitivity.C183_nonneg",
    "CatLearn.Sensitivity.C183_constant",
    "CatLearn.Sensitivity.C183_shift",
    "CatLearn.Sensitivity.C183_far_violated"
   ],
   "note": "C183_second_run_violated: C183 fails for a second run with the same object: it starts with the features the first run has left, and numbers those from 0, so its `abs_index` does not refer to the data of the user. | C183_far_violated: C183 fails for the claim that this is the sensitivity of the predicted mean: the covariances between test and training points do not enter. For one training point at 0 with target `y`, a gaussian kernel of width `w` and regularisation `g`, take a test point far away: the slope of the prediction is as small as wanted, the sensitivity as large as wanted."
  },
  {
   "property": "C184",
   "status": "partial",
   "theorems": [
    "CatLearn.FeatureGA.C184_valid",
    "CatLearn.FeatureGA.C184_initial",
    "CatLearn.FeatureGA.C184_no_error_partial",
    "CatLearn.FeatureGA.C184_parents_violated",
    "CatLearn.FeatureGA.C184_size_violated"
   ],
   "note": "C184_no_error_partial: C184: a run over any number of generations goes through if the population has the announced size, at least one feature is to be selected and one is left over, and the offspring are not too many: `m + 1` parents at least, and, since parent `i` is mated with parent `2 i`, more than `2 (m - 1)`. | C184_parents_violated: C184 fails for more offspring than about half of the population, although the description asks for `m + 1` parents only: parent `2 (m - 1)` does not exist. | C184_size_violated: C184 fails if there are fewer combinations of features than the announced population size: `mutate` draws a position from the announced size."
  },
  {
   "property": "C185",
   "status": "partial",
   "theorems": [
    "CatLearn.FeatureGA.C185_crossover_partial",
    "CatLearn.FeatureGA.C185_mutate_violated"
   ],
   "note": "C185_crossover_partial: C185: after a crossover every recorded score is still the score of the features it is recorded with (in one of their orders: the parents are shuffled in place). | C185_mutate_violated: C185 fails for `mutate`: every mutation changes the features of a member of the population and leaves the score that was recorded for the old ones."
  },
  {
   "property": "C186",
   "status": "partial",
   "theorems": [
    "CatLearn.FeatureGA.C186_crossover_partial",
    "CatLearn.FeatureGA.C186_never_lost_partial",
    "CatLearn.FeatureGA.C186_stale_maximum_violated",
    "CatLearn.FeatureGA.C186_lost_violated"
   ],
   "note": "C186_crossover_partial: C186: if the scores lie between 0 and 1 and do not depend on the order of the features, a crossover keeps a member with the features of the leader and its full fitness, so the leader of the next generation is at least as good. | C186_never_lost_partial: C186: over any number of crossovers from a starting population the maximum fitness does not fall, and it is the score of a member. | C186_stale_maximum_violated: C186 fails for `evolve`, because of the mutations: after two generations the maximum fitness reported is 0.6, but no member of the population has features that score more than 0.5. | C186_lost_violated: C186 fails for `evolve`: the maximum fitness falls, from 0.6 to 0.1 after twelve generations."
  },
  {
   "property": "C187",
   "status": "partial",
   "theorems": [
    "CatLearn.FeatureGA.C187_frequencies",
    "CatLearn.FeatureGA.C187_selected_listed",
    "CatLearn.FeatureGA.C187_missing_violated",
    "CatLearn.FeatureGA.C187_homogeneity"
   ],
   "note": "C187_missing_violated: C187 fails for the last features of the data: if none of the features from `T₀` on is selected, they are not listed with 0 per cent, they are missing."
  },
  {
   "property": "C188",
   "status": "partial",
   "theorems": [
    "CatLearn.SiteSelect.C188_roundtrip",
    "CatLearn.SiteSelect.C188_separated",
    "CatLearn.SiteSelect.C188_first",
    "CatLearn.SiteSelect.C188_relaxed_violated"
   ],
   "note": "C188_relaxed_violated: C188 fails for relaxed structures, close to the origin: the tolerance is relative to the coordinate. The second of two atoms is missing and the first has moved by a millionth of an Å from the origin: the first is reported."
  },
  {
   "property": "C189",
   "status": "partial",
   "theorems": [
    "CatLearn.SiteSelect.C189_cohesive",
    "CatLearn.SiteSelect.C189_stability",
    "CatLearn.SiteSelect.C189_missing",
    "CatLearn.SiteSelect.C189_reference_violated",
    "CatLearn.SiteSelect.C189_emt"
   ],
   "note": "C189_reference_violated: C189 fails for selected sites if reference energies were given: the materials take the default table. For one more eV in the reference of every element the stability and the cohesive energies no longer agree."
  },
  {
   "property": "C190",
   "status": "partial",
   "theorems": [
    "CatLearn.SiteSelect.C190_unique_sites",
    "CatLearn.SiteSelect.C190_selected",
    "CatLearn.SiteSelect.C190_duplicates_violated",
    "CatLearn.SiteSelect.C190_twice_violated",
    "CatLearn.SiteSelect.C190_exhausted"
   ],
   "note": "C190_duplicates_violated: C190 fails for uniqueness, which the description promises: the draws are made with replacement. If more sites are asked for than there are candidates, some site is selected twice, whatever the draws. | C190_twice_violated: … and it can happen for every selection of two or more sites."
  },
  {
   "property": "C191",
   "status": "partial",
   "theorems": [
    "CatLearn.SiteSelect.C191_one_outlier_partial",
    "CatLearn.SiteSelect.C191_several_violated",
    "CatLearn.SiteSelect.C191_count"
   ],
   "note": "C191_one_outlier_partial: C191: with at most one outlier the right site goes: the remaining sites are those whose row does not have the value, and the table is theirs. | C191_several_violated: C191 fails for several outliers: the indices are used one after the other although the list gets shorter. Of consecutive sites `a b c d` with outliers `a` and `c`, the sites `b` and `c` are left with the rows of `b` and `d`; and if the last two are outliers, an exception is raised."
  },
  {
   "property": "C192",
   "status": "partial",
   "theorems": [
    "CatLearn.SiteSelect.C192_refresh",
    "CatLearn.SiteSelect.C192_stale_violated"
   ],
   "note": "C192_stale_violated: C192 fails without a refresh: a new selection of sites keeps the table of the old sites, and the normalised table survives the removal of outliers."
  },
  {
   "property": "C193",
   "status": "proved",
   "theorems": [
    "CatLearn.Distribution.C193_bins",
    "CatLearn.Distribution.C193_integral",
    "CatLearn.Distribution.C193_empty",
    "CatLearn.Distribution.C193_same_bounds",
    "CatLearn.Distribution.C193_images",
    "CatLearn.Distribution.C193_atoms"
   ],
   "note": "C193_bins: C193: bin by bin: `g` times the volume of the shell is the mean number of neighbours, of the elements asked for, with a distance in the bin, averaged over the images; bins are half open, the last one closed. Images without a central atom count with 0. | C193_integral: C193: the integral of the pair distribution is the mean number of other atoms within the bounds: no pair is lost between bins or counted twice, and no atom is its own neighbour. | C193_empty: C193: without images, bins or room between the bounds there is no distribution: NaN, or ValueError. | C193_same_bounds: C193: if both bounds are the same number, the bins cover one unit around it. | C193_images: C193: the order of the images is immaterial. | C193_atoms: C193: the order of the atoms of an image is immaterial."
  },
  {
   "property": "C194",
   "status": "proved",
   "theorems": [
    "CatLearn.Distribution.C194_partials",
    "CatLearn.Distribution.C194_symmetric"
   ],
   "note": "C194_partials: C194: the distribution around the atoms of one element is the sum of its partial distributions over all elements. | C194_symmetric: C194: the partial distributions of two elements in a structure with symmetric distances differ by the ratio of the numbers of atoms only."
  },
  {
   "property": "C195",
   "status": "partial",
   "theorems": [
    "CatLearn.Distribution.C195_positions_partial",
    "CatLearn.Distribution.C195_centres_violated",
    "CatLearn.Distribution.C195_mic_violated",
    "CatLearn.Distribution.C195_bins",
    "CatLearn.Distribution.C195_deviation_partial",
    "CatLearn.Distribution.C195_self_violated",
    "CatLearn.Distribution.C195_missing",
    "CatLearn.Distribution.C195_none"
   ],
   "note": "C195_positions_partial: C195: the positions returned lie in their bins and increase. | C195_centres_violated: C195 fails for the claim of the code (\"Center bins\"): no position is the centre of its bin, for any number of bins, because the range is divided by the number of edges. | C195_mic_violated: C195 fails for `mic=False`: the argument is not used, the minimum image convention is always applied; for two atoms next to each other across the cell boundary the result has a neighbour although there is none without periodic images. | C195_deviation_partial: C195: the deviations sum up to the mean number of pairs whose distance less both radii is within the bounds; an atom is counted as its own neighbour if twice its radius, taken negative, is within the bounds. | C195_self_violated: C195 fails for small radii: a single atom of radius 0.3, with the default bounds, has a \"neighbour\"."
  },
  {
   "property": "C196",
   "status": "partial",
   "theorems": [
    "CatLearn.Sammon.C196_partial",
    "CatLearn.Sammon.C196_isometry",
    "CatLearn.Sammon.C196_order",
    "CatLearn.Sammon.C196_scale_partial",
    "CatLearn.Sammon.C196_repeated_violated"
   ],
   "note": "C196_partial: C196: if the original points are all different, the error is a number, not negative, and 0 exactly if the reduction keeps all distances. | C196_scale_partial: C196: the unit of length is immaterial if it is changed for both sets. | C196_repeated_violated: C196 fails for repeated points: if two equal original points are apart after the reduction the error is infinite; if all points are the same, before and after, or there are fewer than two, it is NaN."
  },
  {
   "property": "C197",
   "status": "partial",
   "theorems": [
    "CatLearn.Clustering.C197_clusters_partial",
    "CatLearn.Clustering.C197_optional_violated"
   ],
   "note": "C197_clusters_partial: C197: with targets for both sets, every training row and every test row lies in exactly one cluster, together with its own target and in the original order; a test row is put into the cluster of the nearest centroid, the first one of several. | C197_optional_violated: C197 fails without targets or test data, which are optional: TypeError without test data or test targets, ValueError without training targets."
  },
  {
   "property": "C198",
   "status": "partial",
   "theorems": [
    "CatLearn.Catmap.C198_entries_partial",
    "CatLearn.Catmap.C198_minimum_violated",
    "CatLearn.Catmap.C198_defaults_violated",
    "CatLearn.Catmap.C198_keys_partial",
    "CatLearn.Catmap.C198_keys_violated"
   ],
   "note": "C198_entries_partial: C198: for every key that occurs among the candidates, energy, uncertainty and id stored are those of one and the same candidate with that key, the first one with the largest predicted energy; all other entries of the CatMAP object stay as they are. | C198_minimum_violated: C198 fails for the claim of the description, \"Use the minimum ab initio energy, disregarding the site\": whenever two candidates with one key have different predictions, the energy stored is not the smallest one. | C198_defaults_violated: C198 fails for the defaults `uncertainty=None` and `catmap=None`: exceptions. | C198_keys_partial: C198: candidates share a key only if they agree in all fields (and in the site, if sites are distinguished and given), provided no field contains an underscore. | C198_keys_violated: C198 fails for fields with underscores: different candidates get the same key, and one is lost."
  },
  {
   "property": "C199",
   "status": "partial",
   "theorems": [
    "CatLearn.Catmap.C199_formula_partial",
    "CatLearn.Catmap.C199_injective_partial",
    "CatLearn.Catmap.C199_formula_violated"
   ],
   "note": "C199_formula_partial: C199: the formula is right if the symbols contain no digit 1 and every multiplicity is 1 or has no digit 1. | C199_injective_partial: C199 (`_partial`: multiplicities without the digit 1, except 1 itself): different compounds have different formulas. | C199_formula_violated: C199 fails for larger multiplicities: 12 is written as 2, 10 as 0 and 11 not at all, whatever the symbol, so different compounds have the same formula."
  },
  {
   "property": "C200",
   "status": "partial",
   "theorems": [
    "CatLearn.AdsFind.C200_highest",
    "CatLearn.AdsFind.C200_found",
    "CatLearn.AdsFind.C200_empty_violated"
   ],
   "note": "C200_empty_violated: C200 is violated for the empty species: `z[-0:]` is every atom, so a clean slab is refused."
  },
  {
   "property": "C201",
   "status": "proved",
   "theorems": [
    "CatLearn.AdsFind.C201_layers",
    "CatLearn.AdsFind.C201_symbols"
   ],
   "note": "C201_layers: C201: `layers2ads_index` returns the atoms in the layers from the stored number on (layers count from 0), in order, if they have the composition of the species, and raises AssertionError if not (KeyError if no number is stored). | C201_symbols: C201: `sym2ads_index` returns all atoms of the given elements and no others, in order."
  },
  {
   "property": "C202",
   "status": "partial",
   "theorems": [
    "CatLearn.AdsFind.C202_positions_partial",
    "CatLearn.AdsFind.C202_repeated_violated",
    "CatLearn.AdsFind.C202_missing",
    "CatLearn.AdsFind.C202_check_violated"
   ],
   "note": "C202_positions_partial: C202 (`_partial`: see the next theorem for the repetitions): if the slab atoms are closer to reference atoms of their element than the adsorbate atoms of this element, `slab_positions2ads_index` returns the atoms of the adsorbate and no others; each once, if no element that only the adsorbate has occurs twice in the formula. | C202_repeated_violated: C202 is violated when the adsorbate has several atoms of an element that the slab does not have (two hydrogen atoms of water on platinum): these atoms are returned more than once, because the comparison that should end the function early compares indices with symbols. | C202_check_violated: C202 is violated when the structure does not have the atoms of the species: the check at the end never fails."
  },
  {
   "property": "C203",
   "status": "partial",
   "theorems": [
    "CatLearn.AdsFind.C203_compare_partial",
    "CatLearn.AdsFind.C203_reconstructions",
    "CatLearn.AdsFind.C203_shape_violated",
    "CatLearn.AdsFind.C203_single_violated"
   ],
   "note": "C203_compare_partial: C203 (`_partial`: the reference has as many atoms as the slab): for connectivity matrices of integers (up to 90000 bonds) `compare_slab_connectivity` tells whether the bonds between the slab atoms, in the order in which they are listed, are those of the reference. | C203_shape_violated: C203 is violated for a reference with another number of atoms: ValueError, and with it no result for any of the pairs. | C203_single_violated: C203 is violated for a reference of one atom: its single entry is compared with every pair of slab atoms, so that two atoms without bonds count as the same slab as one atom."
  },
  {
   "property": "C204",
   "status": "partial",
   "theorems": [
    "CatLearn.SlabLayers.C204_layers_partial",
    "CatLearn.SlabLayers.C204_tolerance",
    "CatLearn.SlabLayers.C204_oxide_violated",
    "CatLearn.SlabLayers.C204_one_per_layer_violated"
   ],
   "note": "C204_layers_partial: C204 (`_partial`: oxides and slabs with one atom in each layer fail, see below): for a slab that is not taken for an oxide, the layers `slab_layers` returns contain every atom exactly once, no layer is empty, the numbers are the mean heights of the layers, and they ascend. For any clustering. | C204_oxide_violated: C204 is violated for oxides: the layers consist of the atoms of one metal only; the oxygen atoms (and other metals) are in no layer. | C204_one_per_layer_violated: C204 is violated for a slab with one atom in each layer (heights more than twice the tolerance apart, as in every slab of a primitive surface cell): no layers are ever returned, for any clustering and any `max_layers`. With one atom in each cluster the pooled deviation is NaN, with fewer clusters it exceeds the tolerance; the function raises ValueError (more clusters than atoms) or ends without a result."
  },
  {
   "property": "C205",
   "status": "partial",
   "theorems": [
    "CatLearn.SplitFiles.C205_last_write_partial",
    "CatLearn.SplitFiles.C205_empty_fold_violated",
    "CatLearn.SplitFiles.C205_no_targets_violated",
    "CatLearn.SplitFiles.C205_formats"
   ],
   "note": "C205_last_write_partial: C205 (`_partial`: JSON does not bring back folds without rows, nor splits without targets, see below): reading a split returns what was last written under this name and format, whatever else is written before and after, for any number of folds: with pickle for all splits, with JSON if every fold has a row and there are targets. | C205_empty_fold_violated: C205 is violated by JSON for folds without rows (more folds than data): the fold comes back as an array with one dimension, of shape `(0,)` instead of `(0, c)`, which the next column index or concatenation refuses. | C205_no_targets_violated: C205 is violated by JSON for splits without targets (`k_fold` without targets): TypeError, while pickle stores them."
  },
  {
   "property": "C206",
   "status": "partial",
   "theorems": [
    "CatLearn.SplitFiles.C206_new_split_partial",
    "CatLearn.SplitFiles.C206_stale_violated",
    "CatLearn.SplitFiles.C206_identity_violated"
   ],
   "note": "C206_new_split_partial: C206 (`_partial`: see the violations below): if half of the data is not smaller than `min_split`, the split that `hierarchy` works with is the one just made, a full hierarchy over the given indices. | C206_stale_violated: C206 is violated for a `min_split` between half and all of the data: no split is made and no error raised, and the split that is loaded is whatever an earlier run left in the file, possibly of other data. | C206_identity_violated: C206 is violated for a format given by a string that is not the literal itself (read from a file or put together): the split is written and cannot be loaded, because `load_split` compares with `is`."
  },
  {
   "property": "C207",
   "status": "partial",
   "theorems": [
    "CatLearn.SplitFiles.C207_index",
    "CatLearn.SplitFiles.C207_subset_partial",
    "CatLearn.SplitFiles.C207_levels_partial",
    "CatLearn.SplitFiles.C207_refused",
    "CatLearn.SplitFiles.C207_other_subset",
    "CatLearn.SplitFiles.C207_global_partial",
    "CatLearn.SplitFiles.C207_twice_violated"
   ],
   "note": "C207_subset_partial: C207 (`_partial`: not for a multiple of 999 ids, C05): what is fetched for a list of uuids from a database filled by `todb` are features and targets of the data points with these uuids, each once, features and targets of a point at the same place. | C207_levels_partial: C207 (`_partial`: subsets of 999·k points, k > 1, cannot be fetched): the whole path from arrays to subsets. Data are stored with `todb`, the index is split with `split_index`, and the subsets of each level are fetched with `get_subset_data`: together they contain each data point exactly once, with its own target, whatever the shuffles and the uuids. | C207_global_partial: C207 (`_partial` as above): `globalscaledata` returns the features of every data point once, and features and targets of the first half, which are its first rows. | C207_twice_violated: C207 is violated by a second `todb` on the same database (running a script twice): the table is kept and the data are appended with new uuids, so every data point is in the index twice and can be in a training and a test subset at once."
  },
  {
   "property": "C208",
   "status": "partial",
   "theorems": [
    "CatLearn.RidgeSearch.C208_estimate_partial",
    "CatLearn.RidgeSearch.C208_nan_violated",
    "CatLearn.RidgeSearch.C208_one_sample_violated"
   ],
   "note": "C208_estimate_partial: C208 (`_partial`: see the violations below): for at least two samples and data points each of which is missing in some sample, the bootstrap estimate is the mean over the data points of the mean squared error that ridge regression (the unique minimiser of the cost, fitted to a sample) makes on the point, over the samples without the point; the training error is the one of the minimiser on all data; they are combined as 0.368 to 0.632. | C208_nan_violated: C208 is violated for a data point that is in every sample (as happens with few samples or few data): the mean of nothing is NaN, and with it the estimate for every regularisation and all targets (C102: the smallest regularisation is then chosen). | C208_one_sample_violated: C208 is violated for a single sample: IndexError."
  },
  {
   "property": "C123",
   "status": "partial",
   "theorems": [
    "CatLearn.GradProc.C123_values",
    "CatLearn.GradProc.C123_slopes_partial",
    "CatLearn.GradProc.C123_product_violated",
    "CatLearn.GradProc.C123_linear_violated",
    "CatLearn.GradProc.C123_trains",
    "CatLearn.GradProc.C123_constant_targets_violated"
   ],
   "note": "C123_slopes_partial: C123 (`_partial`: Gaussian and constant kernels that are added; see the violations): without regularisation the prediction of a model made with gradients is a differentiable function through the training targets at the training points, whose slopes there are the training gradients, with or without scaling of the data. | C123_product_violated: C123 is violated with a product of kernels: without regularisation a Gaussian kernel times a constant cannot be trained on gradients (LinAlgError). | C123_linear_violated: C123 is violated with a linear kernel, whose covariance with gradients is no covariance (C106): training fails, here for one point with two features. | C123_constant_targets_violated: C123 is violated for scaled data if all targets are equal, also if the gradients are not zero: the targets are divided by their standard deviation, and every prediction is nan."
  },
  {
   "property": "C209",
   "status": "partial",
   "theorems": [
    "CatLearn.GradProc.C209_uncertainty_partial",
    "CatLearn.GradProc.C209_constant_multi_violated",
    "CatLearn.GradProc.C209_no_regularisation_violated",
    "CatLearn.GradProc.C209_gradients_help_partial",
    "CatLearn.GradProc.C209_training_points_partial"
   ],
   "note": "C209_uncertainty_partial: C209 (`_partial`: kernels whose covariance with gradients is positive semidefinite, none of them `constant_multi`; see the violation): with regularisation the uncertainty of a prediction is a number, never negative, at most the standard deviation of the prior. | C209_constant_multi_violated: C209: with `constant_multi` among the kernels a model can be trained and predicts, but asking for the uncertainty raises AssertionError (the kernel refuses to be evaluated without gradients). | C209_no_regularisation_violated: C209 is violated without regularisation: a model can be trained and predicts, but asking for the uncertainty raises TypeError. | C209_gradients_help_partial: C209: gradients never make the model less certain: for the same data, kernels and regularisation, the uncertainty of a model with gradients is a number at most that of the model without. | C209_training_points_partial: C209: at a training point, with regularisation zero and no noise kernels, the uncertainty is zero."
  },
  {
   "property": "C210",
   "status": "partial",
   "theorems": [
    "CatLearn.GradProc.C210_update_partial",
    "CatLearn.GradProc.C210_keep_targets",
    "CatLearn.GradProc.C210_drop_gradients_violated",
    "CatLearn.GradProc.C210_add_gradients_violated"
   ],
   "note": "C210_update_partial: C210 (`_partial`: see the violations): updating a model with new features, targets and gradients gives what a new model made of them would be, or the same error. | C210_drop_gradients_violated: C210 is violated without gradients: a model made with gradients cannot be updated with features and targets alone, since the covariance keeps its rows for gradients. | C210_add_gradients_violated: C210 is violated the other way round: a model made without gradients cannot be updated with any."
  },
  {
   "property": "C211",
   "status": "partial",
   "theorems": [
    "CatLearn.GradProc.C211_values_partial",
    "CatLearn.GradProc.C211_gradients_counted_violated"
   ],
   "note": "C211_values_partial: C211 (`_partial`: no noise kernels; see the violation): the first entries of the predictions that `get_training_error` compares are the predictions at the training points, and they are compared with the training targets. | C211_gradients_counted_violated: C211 is violated: the training error is not that of the targets alone; the gradients are counted as if they were targets, with scaled data after division by the scale of the targets over that of the features and addition of the mean target."
  },
  {
   "property": "C212",
   "status": "proved",
   "theorems": [
    "CatLearn.Surrogate.C212_far",
    "CatLearn.Surrogate.C212_energy_zero",
    "CatLearn.Surrogate.C212_uncertainty"
   ],
   "note": "C212_far: C212: the surrogate of `MLNEB` can be trained on any data, repeated structures included, if there are as many energies and gradients as structures and the path has a length, for every minimiser that keeps the bounds. It then predicts an energy for every position, and far from the data (if any free coordinate is large) the largest energy of the training data. | C212_energy_zero: C212: the zero of the energy does not matter: with all energies shifted by `c` the same model is trained, errors included, and all predicted energies are shifted by `c`. | C212_uncertainty: C212: the uncertainty is a number at every position, at most that of the prior, and far from the data it is that of the prior, which is set by the spread of the training energies."
  },
  {
   "property": "C213",
   "status": "partial",
   "theorems": [
    "CatLearn.Surrogate.C213_first_partial",
    "CatLearn.Surrogate.C213_failed_violated",
    "CatLearn.Surrogate.C213_variance_violated",
    "CatLearn.Surrogate.C213_unknown_violated",
    "CatLearn.Surrogate.C213_unknown_partial"
   ],
   "note": "C213_first_partial: C213 (`_partial`: only as long as no optimisation has succeeded): the prior variance of the model of an iteration is that of the energies so far, `1e-3` plus their variance, for the kernels `SQE` and `ARD_SQE`; the model is made with new dictionaries, and if an optimisation is done, it starts from them. | C213_failed_violated: C213 is violated when an optimisation fails: the next model does not go on with the hyperparameters of the last successful optimisation (as the message says), but with those at which the failed one ended: they were written into the same dictionaries. Here `v` is any state after a success, `r` the list of dictionaries kept. | C213_variance_violated: C213 is violated after the first successful optimisation: from then on the prior variance of every model is the one of that iteration, however much the energies found since spread. | C213_unknown_violated: C213 is violated for a kernel that does not exist, if the run starts with one structure: it is accepted, and every model of the run has the hyperparameters and the prior variance for one structure. | C213_unknown_partial: An unknown kernel is refused if the run starts with several structures."
  },
  {
   "property": "C125",
   "status": "partial",
   "theorems": [
    "CatLearn.Aliasing.C125_own_dictionaries_partial",
    "CatLearn.Aliasing.C125_shared_violated",
    "CatLearn.Aliasing.C125_failed_violated"
   ],
   "note": "C125_own_dictionaries_partial: C125 (`_partial`: if no two models are made with the same dictionary, and no optimisation raises): whatever is made, updated and optimised, in any order, every model predicts what it would predict if models were values of their own, and dictionaries that belong to no model are unchanged. | C125_shared_violated: C125 is violated by two models made with the same kernel dictionary, also if their data are different: optimising the second changes what the first predicts, at every point but its training point, and the dictionary of the user. | C125_failed_violated: C125 is violated when an optimisation raises because the likelihood cannot be computed for hyperparameters it tries: the model keeps those hyperparameters together with the inverse covariance of the old ones. A model of one point and a constant kernel with positive constant predicts with the constant that was tried."
  },
  {
   "property": "C118",
   "status": "partial",
   "theorems": [
    "CatLearn.GradProc.C118_gradients_partial",
    "CatLearn.Proc.C118_units_partial",
    "CatLearn.Proc.C118_constant_feature_violated"
   ],
   "note": "C118_gradients_partial: C118 (`_partial`: if no feature is constant in the training data): a model made with gradients and `scale_data=True` does not depend on the units of features and targets: with gradients in the units that belong to them, it can be made or not, predictions are those of the first model in the new units and uncertainties as well. | C118_units_partial: C118 (`_partial`: if no feature is constant in the data of an update): whatever data the model was made of, updated with and however it was optimised, with all features and targets in other units it is made if and only if it was made before, predicts the same values in the new units, and its uncertainties change by the unit of the targets. | C118_constant_feature_violated: C118 is violated for a feature that is constant in the training data: it is not scaled (its standard deviation is taken as 1), so that the uncertainty of a linear model at any other value depends on the unit of this feature."
  },
  {
   "property": "C214",
   "status": "partial",
   "theorems": [
    "CatLearn.Correlation.C214_range",
    "CatLearn.Correlation.C214_perfect",
    "CatLearn.Correlation.C214_monotone",
    "CatLearn.Correlation.C214_units",
    "CatLearn.Correlation.C214_symmetric",
    "CatLearn.Correlation.C214_reversed",
    "CatLearn.Correlation.C214_table_partial",
    "CatLearn.Correlation.C214_default_table",
    "CatLearn.Correlation.C214_lengths",
    "CatLearn.Correlation.C214_names_violated"
   ],
   "note": "C214_table_partial: C214 (`_partial`: for names that are written out): `target_correlation` returns a row for each coefficient asked for, in order, with the coefficients of all features, in order; that the features are standardised first does not matter. | C214_names_violated: C214 is violated for every name that is not a literal (names are compared with `is`) and for misspelt names: the row is empty, and there is no error."
  },
  {
   "property": "C215",
   "status": "partial",
   "theorems": [
    "CatLearn.SiteGeom.C215_features",
    "CatLearn.SiteGeom.C215_rigid",
    "CatLearn.SiteGeom.C215_relabel",
    "CatLearn.SiteGeom.C215_periodic_violated"
   ],
   "note": "C215_periodic_violated: C215 is violated for periodic structures: the features depend on the copy of an atom the cell happens to contain. Two atoms at distance `d` are neighbours; moved by any lattice vector that is long enough, one of them has no neighbours any more and is refused."
  },
  {
   "property": "C216",
   "status": "partial",
   "theorems": [
    "CatLearn.SiteTable.C216_table_partial",
    "CatLearn.SiteTable.C216_single",
    "CatLearn.SiteTable.C216_nan_violated",
    "CatLearn.SiteTable.C216_pure_violated",
    "CatLearn.SiteTable.C216_eleven_violated",
    "CatLearn.SiteTable.C216_none"
   ],
   "note": "C216_table_partial: The table of `SiteFeaturizer.site_features` with at least two sites of at most ten elements each, catlearn/featurize/site_stability.py L530-557. It has one row per site, in their order, and each column once: those all sites have, and three for each of as many elements as some site has. An entry is the site's own value, with 0 in place of NaN. In the columns of elements a site does not have it is 0, save that a site of one element has it entered a second time. Partial: with at least two sites, and up to ten elements in each. | C216_nan_violated: The values of a site depend on the other sites: a stability of NaN (the failed insertion of L541) is NaN with this site alone, but 0, as for a site at equilibrium, as soon as there is another site. | C216_pure_violated: An element present once is counted twice: in a table with a site of a binary material, a site of a pure metal has its metal both as element 0 and as element 1, and the numbers of atoms of its elements add up to twice the number of its atoms. | C216_eleven_violated: `site_features` raises KeyError if some site has eleven elements or more and another at most ten: of the column `Z10` the replacement is `Z00`."
  },
  {
   "property": "C217",
   "status": "partial",
   "theorems": [
    "CatLearn.SiteTable.C217_table_partial",
    "CatLearn.SiteTable.C217_lost_violated",
    "CatLearn.SiteTable.C217_empty"
   ],
   "note": "C217_table_partial: The table of `SiteFeaturizer.features_of_all_sites`, catlearn/featurize/site_stability.py L594-617, when the first image has at least as many elements as all others and there are at least two atoms: one row for each atom of each image, in their order, and as columns the number of the image, followed by the columns of the first atom. An entry is the atom's own value, with 0 for NaN and in columns it does not have. Partial: the first image has to have the most elements. | C217_lost_violated: If some atom has more elements than the first atom, the table has `material_number` twice, and the column `e_val` of the last element is lost, although the atoms with the most elements have a value in it."
  },
  {
   "property": "C218",
   "status": "partial",
   "theorems": [
    "CatLearn.NbFeat.C218_renumber_partial",
    "CatLearn.NbFeat.C218_length",
    "CatLearn.NbFeat.C218_numbering_violated"
   ],
   "note": "C218_renumber_partial: C218: the features do not depend on the numbering of the atoms. Partial: for up to four elements whose atomic numbers differ modulo 8. | C218_numbering_violated: C218 is violated: numbers that agree modulo 8 collide in the table of the set, and the element of the first atom comes first. For F-H-F the second entry is 2, the sum of the squares of the coordination numbers of fluorine, if a fluorine atom is the first, and 4, that of hydrogen, if hydrogen is."
  },
  {
   "property": "C219",
   "status": "partial",
   "theorems": [
    "CatLearn.SystemFeatures.C219_composition",
    "CatLearn.SystemFeatures.C219_order_partial",
    "CatLearn.SystemFeatures.C219_element_zero_violated",
    "CatLearn.SystemFeatures.C219_means_unweighted"
   ],
   "note": "C219_order_partial: C219: the order of the atoms, and of the set, does not matter for the number of atoms, the means and the entries of the elements as a whole. | C219_element_zero_violated: C219 is violated: which element is element 0 depends on the order of a set of strings, and that differs from one run of Python to the next. Any element of the material can be element 0, so that columns `Z0`, `n0` and `e_val0` of the same material differ between runs."
  },
  {
   "property": "C220",
   "status": "partial",
   "theorems": [
    "CatLearn.FracEval.C220_values_partial",
    "CatLearn.FracEval.C220_negative_feature_violated",
    "CatLearn.FracEval.C220_zero_feature_violated",
    "CatLearn.FracEval.C220_inverses_violated"
   ],
   "note": "C220_values_partial: C220 (partial). The numbers returned by `generate_features` are the values of the fractions in lowest terms, each fraction once, if every feature is positive, or if every feature is different from zero and at most one factor is allowed above and below the line. Missing: negative features with higher powers, zero features with denominators, and `max_num = 0` with `max_den = 1` (see the violations). | C220_negative_feature_violated: C220 is violated by negative features: for every list of features without zero, every negative one of them and all orders with `max_num ≥ 2` and `max_den ≥ 1`, the number returned for the square of the feature is minus its square. | C220_zero_feature_violated: C220 is violated by features that are zero: if one feature is zero and denominators are allowed, no fraction at all is returned, not even those without that feature. | C220_inverses_violated: C220 is violated for `max_num = 0, max_den = 1`: the inverses of the features are not returned for any list of numbers; the call raises."
  },
  {
   "property": "C221",
   "status": "partial",
   "theorems": [
    "CatLearn.SiteStore.C221_energies",
    "CatLearn.SiteStore.C221_returns",
    "CatLearn.SiteStore.C221_reference_violated",
    "CatLearn.SiteStore.C221_element_violated",
    "CatLearn.SiteStore.C221_stored_energy_violated"
   ],
   "note": "C221_reference_violated: C221 is violated by sites with their own reference energies: the updated materials use the default table, whatever table the site was made with. Here a defect of one atom with the energy -5 has a cohesive energy of -6 in the table of the site; the file with this same energy turns it into -15. | C221_element_violated: C221 is violated by elements that the default table does not have: whatever the table of the site, the file cannot be taken over. | C221_stored_energy_violated: C221 is violated by stored energies of materials: a material whose energy was stored in the object and whose atoms have no calculator is without energy after the energy of its defect has been updated, so that the stability of the site becomes NaN."
  },
  {
   "property": "C222",
   "status": "proved",
   "theorems": [
    "CatLearn.SiteStore.C222_energies",
    "CatLearn.SiteStore.C222_tables",
    "CatLearn.SiteStore.C222_calculators"
   ],
   "note": "C222_energies: C222. `_update_materials` keeps, at every position, the number, the atoms and the energies of the site, also if it raises on the way. | C222_tables: C222. If `_update_materials` does not raise, a site with both energies has the table of the featurizer in its two materials and the cohesive energies belonging to it; a site without an energy is left as it is. | C222_calculators: C222. If `_update_materials` does not raise, the energies of calculators reach the sites: a site of two materials just made from atoms with calculators keeps these energies in its materials, and its cohesive energies are those of the energies of the calculators."
  },
  {
   "property": "C223",
   "status": "partial",
   "theorems": [
    "CatLearn.SiteStore.C223_written_partial",
    "CatLearn.SiteStore.C223_existing_directory_violated",
    "CatLearn.SiteStore.C223_same_number_violated"
   ],
   "note": "C223_written_partial: C223 (partial). If the folder has no directory of a material of the sites, sites with the same image number have the same material, and sites with the same image number, atom and composition the same defect, then after `write_site_trajectories` both structures of every site are found under its name. Missing: see the violations. | C223_existing_directory_violated: C223 is violated by folders that are used again: if the directory of a material exists, the structure in it stays, whatever the material of the site is. | C223_same_number_violated: C223 is violated by sites of different materials with the same image number: only the first material is written."
  },
  {
   "property": "C224",
   "status": "partial",
   "theorems": [
    "CatLearn.SiteStore.C224_numbers_partial",
    "CatLearn.SiteStore.C224_resume",
    "CatLearn.SiteStore.C224_extend",
    "CatLearn.SiteStore.C224_merge_violated",
    "CatLearn.SiteStore.C224_clash_violated",
    "CatLearn.SiteStore.C224_replace_violated",
    "CatLearn.SiteStore.C224_renumbered_violated"
   ],
   "note": "C224_numbers_partial: C224 (partial). If all sites are read with `traj_to_sites(…, extend=True)`, site number `k` has the image number `k`, the structures of the `k`-th pair of files and the atom found missing in it, so that no two sites have the same number. Missing: sites that were not read this way (see the violations). | C224_merge_violated: C224 is violated by `read_sites(…, extend=True)`: the numbers in the file are kept, so that the file of one sequence of reads added to the sites of another always gives two sites the same number. | C224_clash_violated: C224 is violated by sites that were selected or read from a file before: the number given to a new site is the number of sites so far, which a site may have already. This holds for every list of sites in which some site has the number `len(sites)`; for instance the single site that `select_specific_sites([[1, 0]])` makes. | C224_replace_violated: C224 is violated by `extend=False`: the list is replaced but the number goes on counting, so that the same call repeated gives another number. | C224_renumbered_violated: C224 is violated for sites that were written and are read back: the number in the names of the directories is not the number of the site read, so that an energy reported under the name of the directory does not arrive. For every pair of sites of the same image, written to `material{i}` and read back in order, an energy file with the name of the second site changes nothing unless the image was number 1."
  },
  {
   "property": "C225",
   "status": "partial",
   "theorems": [
    "CatLearn.CurveOptions.C225_returns_partial",
    "CatLearn.CurveOptions.C225_local_scaling_violated",
    "CatLearn.CurveOptions.C225_frequency_violated",
    "CatLearn.CurveOptions.C225_frequency_returns",
    "CatLearn.CurveOptions.C225_coefficients_partial",
    "CatLearn.CurveOptions.C225_feature_variation_violated"
   ],
   "note": "C225_returns_partial: C225 (partial). With global scaling and a fixed number of features, `hierarchy` returns an error for every subset of every level and every other subset of the same level, in the order of the keys. Missing: the other options, see the violations. | C225_local_scaling_violated: C225 is violated without global scaling: `hierarchy` raises for every data set, every feature selection and either kind of learning curve. | C225_frequency_violated: C225 is violated by `feature_frequency` without global scaling, also if the globally scaled subset is not used. | C225_coefficients_partial: C225 (partial): within one subset, the errors for a varying number of features are computed with coefficients fitted to that subset and to the set of features they are reported for, one for each test subset and each set of features. Missing: `hierarchy` does not return them. | C225_feature_variation_violated: C225 is violated by a varying number of features: as soon as some set of features is found, `hierarchy` raises at the first subset with the number 1, which every level has, and returns nothing."
  },
  {
   "property": "C226",
   "status": "partial",
   "theorems": [
    "CatLearn.GASearch.C226_fitness",
    "CatLearn.GASearch.C226_file",
    "CatLearn.GASearch.C226_stops",
    "CatLearn.GASearch.C226_pareto_violated",
    "CatLearn.GASearch.C226_pareto_partial"
   ],
   "note": "C226_pareto_violated: C226 is violated with several objectives: ranks are computed within the population and within each set of offspring, so the fitness listed with the final population is not that of its members (here a dominated individual is listed with the rank of the first front). | C226_pareto_partial: C226, several objectives (partial). In a search for several objectives every individual of the final population is listed with its rank in the batch it was evaluated with, which is the given population or the offspring of one generation. Missing: its rank in the final population (see the violation)."
  },
  {
   "property": "C227",
   "status": "partial",
   "theorems": [
    "CatLearn.GASearch.C227_continued_partial",
    "CatLearn.GASearch.C227_counts_afresh_violated",
    "CatLearn.GASearch.C227_pareto_violated"
   ],
   "note": "C227_continued_partial: C227, in part. For one objective, a search that did not converge can be continued by a second one from the population it left: if the search made in one go does not converge, the population, its fitness and the file are the same, and if it does, the two searches together make at least as many generations. | C227_counts_afresh_violated: C227 is violated: the second search starts to count afresh, so a search that would have stopped goes on when it is interrupted, and ends with another population. | C227_pareto_violated: C227 is violated with several objectives whatever the criterion: the second search computes other ranks for the same population, and natural selection then keeps other individuals."
  },
  {
   "property": "C228",
   "status": "partial",
   "theorems": [
    "CatLearn.Props.C228_all_acquired_partial",
    "CatLearn.Props.C228_all_acquired_default",
    "CatLearn.Props.C228_too_few_rows",
    "CatLearn.Props.C228_same_loop",
    "CatLearn.Props.C228_small_subset_violated",
    "CatLearn.Props.C228_empty_proposal_violated"
   ],
   "note": "C228_all_acquired_partial: C228, in part. If the initial subset is at least one batch (or the loop is long enough anyway), an emulation without a limit with a surrogate model that ranks all candidates acquires every row exactly once, in as many rounds as full batches, and a last smaller one, require. | C228_small_subset_violated: C228 is violated for an initial subset smaller than a batch: the number of rounds is the number of rows divided by the batch size, rounded down, and rows remain that are never acquired. | C228_empty_proposal_violated: C228 is violated if the surrogate model may stop proposing candidates: `test_acquisition` then ends, while a member of `ensemble_test` repeats the same round up to the end, so the two report different lists for the same emulation."
  },
  {
   "property": "C229",
   "status": "partial",
   "theorems": [
    "CatLearn.RegFit.C229_partition_partial",
    "CatLearn.RegFit.C229_default_size_violated",
    "CatLearn.RegFit.C229_line_search_partial",
    "CatLearn.RegFit.C229_not_found_violated",
    "CatLearn.RegFit.C229_line_search_defaults_violated"
   ],
   "note": "C229_partition_partial: C229, in part. With a size, the accepted and the rejected features are all features, each once; there are as many accepted ones as requested, or all of them; they come in order of decreasing absolute coefficients, and no rejected feature has a larger one. | C229_default_size_violated: C229 is violated by default: without a size every feature is accepted and every feature is rejected. | C229_line_search_partial: C229, line search in part. If the line search returns, the coefficients are those of the first, that is largest, penalty which leaves at least the requested number of features, and every accepted feature is one of those. | C229_not_found_violated: C229 is violated: if no penalty of the list leaves enough features the search does not return the best model it has seen but raises NameError; the same happens for an unknown method. | C229_line_search_defaults_violated: C229 is violated for the default arguments of the line search: without a size, or without a number of steps, it raises TypeError."
  },
  {
   "property": "C230",
   "status": "partial",
   "theorems": [
    "CatLearn.RegFit.C230_prediction_violated",
    "CatLearn.RegFit.C230_prediction_partial"
   ],
   "note": "C230_prediction_violated: C230 is violated: the error requested with `predict=True` is never returned. `get_error` has no entry `average`, and its dictionary returns an empty list for it. | C230_prediction_partial: C230, in part: without `predict` no error is reported; with it the test data are at least compared, lists of different lengths are refused."
  },
  {
   "property": "C231",
   "status": "partial",
   "theorems": [
    "CatLearn.NebFiles.C231_restart_partial",
    "CatLearn.NebFiles.C231_energies_violated",
    "CatLearn.NebFiles.C231_previous_lost_violated",
    "CatLearn.NebFiles.C231_overwritten_violated",
    "CatLearn.NebFiles.C231_stale_file_violated"
   ],
   "note": "C231_restart_partial: C231, the part that holds: a calculation started without previous calculations (in an empty directory, or with `restart=False`) is continued by a new object in that directory with exactly its training data, whatever structures it had evaluated and whatever endpoint objects are passed — provided the energy asked for by `force_consistent` is the one that is read back, and the structures all have the same number of atoms. The first two rows are the endpoints. | C231_energies_violated: C231 is violated by the default `force_consistent=None` with a calculator that has a free energy: the evaluated structures enter the training data with their free energy, the endpoints and everything read from the file with the extrapolated one. After a restart every evaluated structure has another target than before. | C231_previous_lost_violated: C231 is violated for a calculation given previous calculations in a fresh directory: they and the endpoints are never written to `evaluated_structures.traj`; a restart trains on the newly evaluated structures alone. | C231_overwritten_violated: C231 is violated for `restart=False` with `prev_calculations='evaluated_structures.traj'`: the file is overwritten with the endpoints before it is read, so that the calculations in it are lost. | C231_stale_file_violated: C231: the training data contain the endpoints of the call unless a file or previous calculations are read; then they are the data of that file, whatever endpoints are passed. With the default `restart=True` a file left behind by another calculation is taken for the own one."
  },
  {
   "property": "C232",
   "status": "partial",
   "theorems": [
    "CatLearn.NebFiles.C232_starts_partial",
    "CatLearn.NebFiles.C232_sequential_violated",
    "CatLearn.NebFiles.C232_sequential_reached",
    "CatLearn.NebFiles.C232_one_image_violated",
    "CatLearn.NebFiles.C232_second_run_violated"
   ],
   "note": "C232_starts_partial: C232, the part that holds: with a constant number of images, for every sequence of passes and whatever the optimisation on the surrogate does to the inner images, no pass fails, each starts its first cycle from the initial path and its second one (if there is one) from the path stored by the previous pass, and every path kept runs from the initial to the final state. | C232_sequential_violated: C232 is violated in sequential mode: when the number of images has been raised again, the second cycle of a pass reads the last `N` structures across the stored paths of three images. Its inner images then contain the final and the initial state next to each other: the path goes to the end, jumps back to the start and goes to the end again. | C232_one_image_violated: C232 in sequential mode: the one moving image does not start half way but at the first inner image of the path of `N` images, on a straight path at `1/(N-1)` of the way. | C232_second_run_violated: C232 is violated for a second call of `run` on a converged object: the first one deleted the file the passes start from, and the first pass fails."
  },
  {
   "property": "C233",
   "status": "partial",
   "theorems": [
    "CatLearn.NebFiles.C233_rows_partial",
    "CatLearn.NebFiles.C233_stale_energies_violated"
   ],
   "note": "C233_rows_partial: C233, the part that holds: in each row the uncertainty is twice that of the process given, at the image; the energies of the endpoints are the computed ones, and those of the inner images the predictions of the process they were optimised with. | C233_stale_energies_violated: C233 is violated: the table written when the run has converged is made after a last training of the process, but the images keep their calculators. If the new process reproduces the energy of the structure evaluated last, and the old one had predicted another value, the table shows the old prediction for that image — with the uncertainty of the new process, zero if that is certain of the training points."
  },
  {
   "property": "C234",
   "status": "partial",
   "theorems": [
    "CatLearn.MLMin.C234_restart_partial",
    "CatLearn.MLMin.C234_repeated_violated",
    "CatLearn.MLMin.C234_from_last_violated"
   ],
   "note": "C234_restart_partial: C234, the part that holds: if a run (converged or out of budget) never evaluated a geometry twice, a new object with the same initial structure that reads the file of the run has the same geometries, energies, gradients and forces, in the same order; its iteration counter is zero. | C234_repeated_violated: C234 is violated if a geometry was evaluated twice: the second evaluation is not read back. | C234_from_last_violated: C234 is violated if the calculation is continued from its last structure: that structure moves to the head of the lists, the next step starts from the one evaluated before it, and convergence is judged by that one. A converged calculation is then not found converged."
  },
  {
   "property": "C235",
   "status": "partial",
   "theorems": [
    "CatLearn.Props.C235_units_partial",
    "CatLearn.Props.C235_tolerance_violated"
   ],
   "note": "C235_units_partial: C235 (`_partial`: the same features are informative in both units, see `C235_tolerance_violated`; every target is a number): training in other units of the features gives the same process or the same exception, and for every test set given in the units of the training the prediction is the same. | C235_tolerance_violated: C235 fails when a feature is small in the new units: with a process that can always be fitted, two points with one feature can be trained on, but after a change of units that makes the two values closer than the (absolute) tolerance the feature is eliminated and the training raises AssertionError."
  },
  {
   "property": "C236",
   "status": "partial",
   "theorems": [
    "CatLearn.Props.C236_trained_partial",
    "CatLearn.Props.C236_refused",
    "CatLearn.Props.C236_failed_training_violated",
    "CatLearn.Props.C236_unusable_violated"
   ],
   "note": "C236_trained_partial: C236 (`_partial`: the last training succeeded, see `C236_failed_training_violated`; every target is a number): the answer is that of the process fitted to the standardised informative features, and every test row goes through the map that standardised the training data, whatever the object was before. | C236_failed_training_violated: C236 fails after a training that raises when the process is made: the object keeps its old process but scales test rows with the statistics of the new data, so that it silently gives other predictions than before. | C236_unusable_violated: C236 fails after a training that raises for want of data: the object, which could predict before, now raises AttributeError for every test set."
  },
  {
   "property": "C237",
   "status": "partial",
   "theorems": [
    "CatLearn.GADraws.C237_order_partial",
    "CatLearn.GADraws.C237_default_partial",
    "CatLearn.GADraws.C237_objectives",
    "CatLearn.GADraws.C237_draws",
    "CatLearn.GADraws.C237_search",
    "CatLearn.GADraws.C237_accuracy_violated"
   ],
   "note": "C237_order_partial: C237 (`_partial`: without `accuracy`). Take two fitness functions of which one is a strictly increasing function of the other (errors in other units, squared errors, logarithms), and the same random numbers. Then both searches select the same parents, go through the same populations, write the same individuals to the file, stop at the same generation and return the same individuals in the same order. The criterion of convergence may be any that answers alike in both scales. | C237_default_partial: C237 for the default criterion (`_partial`: without `accuracy`): minus infinity is minus infinity in both scales. | C237_accuracy_violated: C237 is violated with `accuracy`: the decimals are those of the unit at hand. With errors a thousand times smaller (kJ instead of J) and two decimals, the same search with the same random numbers ends with a single individual, the first of the initial population, and not with the best two."
  },
  {
   "property": "C238",
   "status": "partial",
   "theorems": [
    "CatLearn.Predictors.C238_fitness_partial",
    "CatLearn.Predictors.C238_search_partial",
    "CatLearn.Predictors.C238_objectives_partial",
    "CatLearn.Predictors.C238_features",
    "CatLearn.Predictors.C238_defined",
    "CatLearn.Predictors.C238_objectives",
    "CatLearn.Predictors.C238_mean",
    "CatLearn.Predictors.C238_failing",
    "CatLearn.Predictors.C238_time",
    "CatLearn.Predictors.C238_constant_feature_violated"
   ],
   "note": "C238_fitness_partial: C238 (`_partial`: no feature is constant in a training set). The cross-validated fitness of any selection of features, with features and targets in other units, is the fitness in the old units times the unit of the targets; it fails in the same cases. | C238_search_partial: C238, searches for the smallest error (`_partial`: no feature is constant in a training set, no `accuracy`, and the fitness of every selection is a number or minus infinity; see `C238_defined`). With features and targets in other units and the same random numbers, a search goes through the same selections of features, stops at the same generation, and returns the same selections; the errors are those in the new unit. | C238_objectives_partial: C238, searches for the smallest error and the smallest number of features (`_partial`: no feature is constant in a training set, and the fitness of every selection is a number or minus infinity). With features and targets in other units and the same random numbers the whole search is the same, ranks included, also with `accuracy` and any criterion of convergence. | C238_constant_feature_violated: C238 is violated by a feature that is constant in the training data but not in the test data: it is not scaled, so the score returned by `minimize_error` depends on the unit of this feature."
  },
  {
   "property": "C239",
   "status": "partial",
   "theorems": [
    "CatLearn.Impute.C239_impute_partial",
    "CatLearn.Impute.C239_targets",
    "CatLearn.Impute.C239_infinite_violated",
    "CatLearn.Impute.C239_no_column_violated",
    "CatLearn.Impute.C239_copied_column_violated"
   ],
   "note": "C239_impute_partial: C239 (partial). With `max_impute_fraction = f` between 0 and 1 exactly the columns are returned in which at most the fraction `f` of the rows of the training data has no number, and the masked ones. Numbers are returned unchanged; every nan in such a column, of the training and of the test data, is replaced by the statistic of the numbers of the training data in that column: the test data have no influence on the training data or on what is put in. Without a mask the training data returned are all numbers. Missing: data with an infinity in such a column, and data without any such column (see the violations). | C239_infinite_violated: C239 is violated by every infinite value: if a column that would be imputed has an infinity, the call fails, although such columns are to be removed or imputed; the same call without imputation returns. | C239_no_column_violated: C239 is violated if no column has few enough missing values: instead of removing all columns the call fails. | C239_copied_column_violated: C239 is violated with `max_impute_fraction = 1`: a column without any number is filled with a copy of another feature if only one other column is imputed."
  },
  {
   "property": "C240",
   "status": "partial",
   "theorems": [
    "CatLearn.Impute.C240_test_untouched_partial",
    "CatLearn.Impute.C240_test_untouched_violated"
   ],
   "note": "C240_test_untouched_partial: C240 (partial). The test matrix of the caller is unchanged if it is not an array of floats, if no imputation is asked for, or if it has a number in every entry of the imputed columns; the training matrix is always copied. | C240_test_untouched_violated: C240 is violated by every test matrix of floats with a nan in a column that is imputed: the call overwrites it."
  },
  {
   "property": "C241",
   "status": "partial",
   "theorems": [
    "CatLearn.Proc.C241_covariance_partial",
    "CatLearn.Proc.C241_partial",
    "CatLearn.Proc.C241_quadratic_violated"
   ],
   "note": "C241_covariance_partial: C241: the covariance of two points does not depend on the order in which the features are given, nor on features no kernel uses. | C241_partial: C241: the order of the features is immaterial to a Gaussian process, and so are features that no kernel uses: a model trained on the features `σ 0, σ 1, …` with corresponding kernels can be built whenever the one trained on all features can, and then the predictions and uncertainties of both are the same, with and without standardisation of the data. | C241_quadratic_violated: C241 fails for the quadratic kernel with a slope for each feature: exchanging the two features and their slopes changes the covariance, as the second slope is used as the degree."
  },
  {
   "property": "C242",
   "status": "proved",
   "theorems": [
    "CatLearn.Proc.C242_amplitude"
   ],
   "note": "C242_amplitude: C242: a covariance `c²` times as large together with a regularisation `c` times as large leaves all predictions as they are and multiplies all uncertainties by `c` (hyperparameters not on a log scale)."
  },
  {
   "property": "C243",
   "status": "partial",
   "theorems": [
    "CatLearn.Props.C243_standardize_units_partial",
    "CatLearn.Props.C243_normalize_units_partial",
    "CatLearn.Props.C243_min_max_units_partial",
    "CatLearn.Props.C243_constant_violated",
    "CatLearn.Props.C243_standardize_again",
    "CatLearn.Props.C243_normalize_again",
    "CatLearn.Props.C243_min_max_again",
    "CatLearn.Props.C243_unit_length",
    "CatLearn.Props.C243_targets"
   ],
   "note": "C243_standardize_units_partial: C243: standardised training data do not depend on units and zero of the features, and neither do test data in columns that vary (among the training data, or with `local=False` always). | C243_normalize_units_partial: C243: the same for `normalize`. | C243_min_max_units_partial: C243: the same for `min_max`. | C243_constant_violated: C243 fails for test data in a column that is constant among the training data: there the result keeps the units, for all three functions."
  },
  {
   "property": "C244",
   "status": "partial",
   "theorems": [
    "CatLearn.Props.C244_rank_partial",
    "CatLearn.Props.C244_proximity",
    "CatLearn.Props.C244_cluster_violated"
   ],
   "note": "C244_rank_partial: C244: when targets, predictions, uncertainties and the value aimed at are expressed in other units (and with another zero), 'optimistic' and 'EI' scores of all candidates are multiplied by the same positive factor, 'PI' stays the same, 'UCB' is multiplied by a positive factor and shifted by the same amount for all candidates and 'pdf' is divided by the factor: the order of the candidates is the same. (Uncertainties are not zero.) | C244_cluster_violated: C244 fails for 'cluster', which divides predictions by the number of training points nearby: with another zero of the energy the order of two candidates is reversed."
  },
  {
   "property": "C245",
   "status": "proved",
   "theorems": [
    "CatLearn.RidgeSearch.C245_get_units",
    "CatLearn.RidgeSearch.C245_get_order",
    "CatLearn.RidgeSearch.C245_get_axes",
    "CatLearn.RidgeSearch.C245_order",
    "CatLearn.RidgeSearch.C245_rotation",
    "CatLearn.RidgeSearch.C245_units",
    "CatLearn.RidgeSearch.C245_loocv_units",
    "CatLearn.RidgeSearch.C245_search_targets",
    "CatLearn.RidgeSearch.C245_search_features"
   ],
   "note": "C245_get_units: C245, from data to coefficients: with features multiplied by `b` and targets by `c`, `get_coefficients` with leave-one-out cross validation finds a regularisation `b²` times as large and coefficients `c / b` times as large, and fails if it failed before, whatever singular value decompositions are returned. | C245_get_order: C245, from data to coefficients: `get_coefficients` of reordered features and data points finds the same regularisation and the reordered coefficients. | C245_get_axes: C245, from data to coefficients: without a prior, `get_coefficients` of features in other orthogonal axes finds the same regularisation and the coefficients in these axes, so that predictions are the same. | C245_order: C245: the order of features and of data points is immaterial: the coefficients of reordered features are the reordered coefficients, for any two singular value decompositions. | C245_rotation: C245: without a prior, predictions do not depend on the choice of orthogonal axes for the features. | C245_units: C245: the coefficients are in units of the target divided by units of the features. | C245_loocv_units: C245: the leave-one-out error is in units of the target and does not depend on the units of the features. | C245_search_targets: C245: the units of the targets do not influence the regularisation found: error estimates that are all multiplied by the same factor give the same result, for every search. | C245_search_features: C245: the units of the features do not influence the search: for features multiplied by `b`, whose singular values are `b²` times as large and whose error estimates belong to regularisations `b²` times as large, the result is `b²` times as large."
  },
  {
   "property": "C246",
   "status": "proved",
   "theorems": [
    "CatLearn.RidgeSearch.C246_linear"
   ],
   "note": "C246_linear: C246: a Gaussian process with the linear kernel and regularisation `r` is ridge regression with the regularisation `r²`: both give the same predictions for all test points, whatever training data and singular value decomposition."
  },
  {
   "property": "C247",
   "status": "proved",
   "theorems": [
    "CatLearn.Proc.C247_units",
    "CatLearn.Proc.C247_shift",
    "CatLearn.Proc.C247_linear_differs",
    "CatLearn.GradProc.C247_gradients"
   ],
   "note": "C247_units: C247: a Gaussian process whose kernels depend on differences of features predicts the same, with the same uncertainties and the same likelihood, if features are given with another zero and in other units, and the widths in these units, without standardisation. | C247_shift: C247: the zero of the features does not matter unless there is a linear kernel; the kernels stay as they are. | C247_linear_differs: C247 concerns kernels of differences only: with the linear kernel the zero of the features matters. | C247_gradients: C247: the zero of the features does not matter to a model trained on values and gradients either, unless there is a linear kernel: it can be made or not, and predictions, uncertainties and errors are the same."
  },
  {
   "property": "C248",
   "status": "partial",
   "theorems": [
    "CatLearn.Hierarchy.C248_curve_partial",
    "CatLearn.Hierarchy.C248_workflow_partial",
    "CatLearn.Hierarchy.C248_no_sizes",
    "CatLearn.Hierarchy.C248_too_few",
    "CatLearn.Hierarchy.C248_curve_violated"
   ],
   "note": "C248_curve_partial: C248, when every subset has at least three members: the curve has one point for every level of the hierarchy, from the smallest subsets to the largest. Its abscissa is the size of the subsets of the level, rounded up; its ordinate the mean of the errors over all ordered pairs of different subsets of the level, trained on the rows of the first and tested on the rows of the second. Missing: subsets of one or two members, see `C248_curve_violated`, and subsets whose size is a multiple of 999 above 999, see `C05_fetch_violated`. | C248_workflow_partial: C248 from the data to the curve: `split_index`, `split_predict` and `transform_output` on a table of at most 1997 rows, with `min_split` from three to half of them. | C248_curve_violated: C248 fails for subsets of two: with 17 data and `min_split = 2` there are three levels, of subsets of 8 or 9, 4 or 5 and 2 or 3, but the curve has four points, and the error reported for the size 4 is that of training sets of three alone: the errors of the subsets of four are reported for the size 5. (Here the error of a prediction is the size of the training set.)"
  },
  {
   "property": "C249",
   "status": "partial",
   "theorems": [
    "CatLearn.Err.C249_zero_partial",
    "CatLearn.Err.C249_bound_partial",
    "CatLearn.Err.C249_factor_partial",
    "CatLearn.Err.C249_zero_violated"
   ],
   "note": "C249_zero_partial: C249, predictions that are not negative and targets above -1: every pair counts, and the error is zero exactly if every prediction is right. | C249_bound_partial: C249: for values that are not negative the logarithmic error is at most the root-mean-squared error. | C249_factor_partial: C249: predictions that are all wrong by the same factor (after adding one) have the logarithm of that factor as error. | C249_zero_violated: C249: pairs whose target is below -1 are dropped silently, whatever is predicted, and negative predictions count as zero, so that wrong predictions can have the error zero; a target of -1 makes the error infinite."
  },
  {
   "property": "C250",
   "status": "proved",
   "theorems": [
    "CatLearn.Curve.C250_refined",
    "CatLearn.Curve.C250_largest",
    "CatLearn.Curve.C250_degenerate"
   ],
   "note": "C250_refined: C250: a refinement ends with a penalty that is at least the one found before, at most the bound of the search, and still selects the requested number of features. | C250_largest: C250: with one step (the default), the result is the largest of the penalties inspected that selects the requested number of features; if there is none, the penalty found before. | C250_degenerate: C250: without steps nothing is done, without penalties to inspect the call fails."
  },
  {
   "property": "C251",
   "status": "proved",
   "theorems": [
    "CatLearn.FeatureGA.C251_rows",
    "CatLearn.FeatureGA.C251_history",
    "CatLearn.FeatureGA.C251_continued"
   ],
   "note": "C251_rows: C251, rows. The table that `evolve` returns has one row per generation; row `j` is numbered `j` and holds maximum, mean (never above the maximum) and homogeneity of the population before generation `j`, and the recorded frequencies are those of the same population. The population left behind is that of the last generation. | C251_history: C251, history. Over any number of calls the history is numbered from zero without gaps, keeps the earlier rows and gains the rows of the last call. | C251_continued: C251, continued. Two calls of `evolve` leave the same population, history and frequencies as one call with all generations (the random numbers going on where they were)."
  },
  {
   "property": "C252",
   "status": "partial",
   "theorems": [
    "CatLearn.Props.C252_units_partial",
    "CatLearn.Props.C252_zero_violated",
    "CatLearn.Props.C252_unit_violated"
   ],
   "note": "C252_units_partial: C252 (partial: the test for constant features must give the same answers in both units, see below). Expressing features and target in other units and with other zeros, also with the sign reversed, changes neither the order, nor the strengths of the correlations, nor the number of features that screening suggests. | C252_zero_violated: C252 is violated for another zero: the test for constant features is relative to the first value. A feature that is the target itself but for its unit and zero comes last if it is measured from a distant zero, and first otherwise. | C252_unit_violated: C252 is violated for other units, too: the same with a feature measured in a unit a billion times as large."
  },
  {
   "property": "C253",
   "status": "proved",
   "theorems": [
    "CatLearn.Props.C253_units",
    "CatLearn.Props.C253_sign",
    "CatLearn.Props.C253_order"
   ],
   "note": "C253_units: C253, units. With the targets in another unit and from another zero, the same data are removed as outliers and the deviation is that of the other unit. | C253_sign: C253, sign. With the sign of the targets reversed the same data are removed, high and low outliers exchanged. | C253_order: C253, order. The order of the data is immaterial: the same pairs of features and target are kept."
  },
  {
   "property": "C254",
   "status": "partial",
   "theorems": [
    "CatLearn.Props.C254_coefficients",
    "CatLearn.Props.C254_order_partial",
    "CatLearn.Props.C254_order_violated"
   ],
   "note": "C254_order_partial: C254 (partial: the test for constant features must give the same answers, see below). Screening data in another order gives the same order of features, the same correlations and the same number of features. | C254_order_violated: C254 is violated: the test for constant features compares with the first entry, with a tolerance relative to this entry. With the first two data exchanged, the feature that is the target itself but for its zero and unit comes first instead of last."
  },
  {
   "property": "C255",
   "status": "partial",
   "theorems": [
    "CatLearn.Props.C255_zeros",
    "CatLearn.Props.C255_units_partial",
    "CatLearn.Props.C255_units_violated",
    "CatLearn.Props.C255_skewness",
    "CatLearn.Props.C255_order",
    "CatLearn.Props.C255_order_infinite"
   ],
   "note": "C255_units_partial: C255, units (partial: the deviation of a feature must be nothing, or not tiny in both units, see below). `clean_variance` removes the same features in other units and from other zeros. | C255_units_violated: C255 is violated: a feature that varies is removed when it is expressed in a larger unit, and kept otherwise."
  },
  {
   "property": "C256",
   "status": "partial",
   "theorems": [
    "CatLearn.KernelAA.C256_defined",
    "CatLearn.KernelAA.C256_symmetric",
    "CatLearn.KernelAA.C256_covariance_partial",
    "CatLearn.KernelAA.C256_labels_violated",
    "CatLearn.KernelAA.C256_covariance_violated",
    "CatLearn.KernelAA.C256_scaled_violated"
   ],
   "note": "C256_covariance_partial: C256 (partial: hyperparameters for which differing is penalised, `(1 - l) / (c - l) ≤ l`). The matrix is positive semidefinite, the entry of two equal rows is `l ^ N` for each feature and number of categories, and no entry is larger. | C256_labels_violated: C256 is violated: the label of a category matters. Two rows with different categories get `1/3` or `2/9` depending on the numbers by which the categories are called, and not the value `1/2` of Aitchison and Aitken. | C256_covariance_violated: C256 is violated: for `l = 1/4` and two categories, different rows have a larger entry than equal rows, and the matrix is not positive semidefinite. | C256_scaled_violated: C256 is violated: `scaled_sqe_kernel` raises TypeError for all arguments (NotImplementedError if gradients are asked for)."
  },
  {
   "property": "C257",
   "status": "partial",
   "theorems": [
    "CatLearn.Pca.C257_variance_partial",
    "CatLearn.Pca.C257_variance_violated"
   ],
   "note": "C257_variance_partial: C257 (partial: all the variances reported are equal, or zero). The leading variance is the percentage of the sum of squares of the data that is found along the first component. | C257_variance_violated: C257 is violated: the numbers are shares of the singular values and not of their squares. Whenever another component has a smaller variance that is not zero, the variance reported for the first component is too small."
  },
  {
   "property": "C258",
   "status": "partial",
   "theorems": [
    "CatLearn.Pca.C258_rows",
    "CatLearn.Pca.C258_independent",
    "CatLearn.Pca.C258_no_test_partial",
    "CatLearn.Pca.C258_cleanup",
    "CatLearn.Pca.C258_no_test_violated",
    "CatLearn.Pca.C258_refused",
    "CatLearn.Pca.C258_sklearn"
   ],
   "note": "C258_no_test_partial: C258 (partial: without cleaning). The test data may be left out: the training data and the variances are the same. | C258_no_test_violated: C258 is violated for cleaned data: `clean_variance` returns a dictionary whose missing entries are empty lists, so without test data an empty list takes their place and every call raises an exception."
  },
  {
   "property": "C259",
   "status": "partial",
   "theorems": [
    "CatLearn.Props.C259_order_2",
    "CatLearn.Props.C259_order_2ab",
    "CatLearn.Props.C259_div",
    "CatLearn.Props.C259_single_partial",
    "CatLearn.Props.C259_ablog_partial",
    "CatLearn.Props.C259_squares",
    "CatLearn.Props.C259_single_violated",
    "CatLearn.Props.C259_ablog_violated"
   ],
   "note": "C259_single_partial: C259 (partial: every column has the same smallest absolute entry `|min|` in both matrices): squares, roots and logarithms. | C259_ablog_partial: C259 (partial: as before): combinations of logarithms. | C259_single_violated: C259 is violated for roots and logarithms: the shift is taken from the matrix that is given. Wherever the smallest entry of a column has another absolute value, the same entry has another root and another logarithm in the other matrix; so test data that are transformed on their own do not match the training data. | C259_ablog_violated: C259 is violated for the combinations of logarithms in the same way, unless `a + b = 0`."
  },
  {
   "property": "C260",
   "status": "partial",
   "theorems": [
    "CatLearn.Props.C260_screen_partial",
    "CatLearn.Props.C260_select_partial",
    "CatLearn.Props.C260_eliminate_partial",
    "CatLearn.Props.C260_screen_violated"
   ],
   "note": "C260_screen_partial: C260 (partial: no two features are equally strong). Screening the features in another order finds the same order of the features. In every case the sorted correlations and the size are the same. | C260_select_partial: C260 (partial: as before), selection by the coefficients of a regression. The same features are accepted and rejected, in the same order. | C260_eliminate_partial: C260 (partial: as before), elimination. Giving the features of the training and the test data in another order leaves the same features, in another order. | C260_screen_violated: C260 is violated for features that are equally strong, for example a feature and its negative: the first one that is given comes first, so the order of the columns decides."
  },
  {
   "property": "C261",
   "status": "proved",
   "theorems": [
    "CatLearn.Props.C261_variance",
    "CatLearn.Props.C261_skewness",
    "CatLearn.Props.C261_infinite"
   ],
   "note": "C261_variance: C261 for `clean_variance`. | C261_skewness: C261 for `clean_skewness`. | C261_infinite: C261 for `clean_infinite`; the features that must be kept (`mask`) are renumbered with the others."
  },
  {
   "property": "C262",
   "status": "partial",
   "theorems": [
    "CatLearn.SiteGeom.C262_history_partial",
    "CatLearn.SiteGeom.C262_values_partial",
    "CatLearn.SiteGeom.C262_unchosen_violated",
    "CatLearn.SiteGeom.C262_moved_violated"
   ],
   "note": "C262_history_partial: C262 (partial: a site has been chosen before angles or distances are asked for, and the atoms do not move). After any calls, the features of a site are those that a new `Material` gives, and angles and distances are those of the site chosen last. | C262_values_partial: C262, the values: angles and distances after a site was chosen are those of the neighbours of the site. | C262_unchosen_violated: C262 is violated: asking for the angles or distances before a site has been chosen raises ValueError and clears the connection matrix; from then on no site has neighbours, and `get_site_features` raises ValueError for every site of every structure. | C262_moved_violated: C262 is violated when the atoms are moved: the neighbours remain those of the positions at which the `Material` was made. A site whose neighbours are all taken away still has them (a new `Material` raises ValueError)."
  },
  {
   "property": "C263",
   "status": "partial",
   "theorems": [
    "CatLearn.Props.C263_greedy_partial",
    "CatLearn.Props.C263_importance_partial",
    "CatLearn.Props.C263_tie_violated"
   ],
   "note": "C263_greedy_partial: C263 (partial: no two surviving features are equally good in any round). The data with its features in another order, and a model whose errors do not depend on the order of the columns: greedy elimination removes the same features, in the same order and with the same scores. | C263_importance_partial: C263 (partial: as before) for importance elimination. | C263_tie_violated: C263 is violated for features that are equally good: of two of them the one at a certain position is removed, so that exchanging them removes the other one."
  },
  {
   "property": "C264",
   "status": "partial",
   "theorems": [
    "CatLearn.GenAttr.C264_bags_partial",
    "CatLearn.GenAttr.C264_all_violated",
    "CatLearn.GenAttr.C264_unset",
    "CatLearn.GenAttr.C264_types",
    "CatLearn.GenAttr.C264_all_assigned_partial"
   ],
   "note": "C264_bags_partial: C264 (partial: without `bag_edges_all`). After `normalize_features` the bags of atoms and bonds succeed for every structure of the training and the test data, and have the same length for all of them; the entries of `bag_atoms_ads` add up to the number of adsorbate atoms and those of `bag_edges_ads` to the number of bonds outside the slab. | C264_all_violated: C264 is violated for `bag_edges_all`: nothing in the package assigns `ads_atom_types`, so that it raises an error for every structure after all public calls, AttributeError once `atom_types` are known and TypeError before. | C264_all_assigned_partial: C264, what the private function would give: `bag_edges_all` then succeeds for every structure of the data."
  },
  {
   "property": "C265",
   "status": "proved",
   "theorems": [
    "CatLearn.Proc.C265_matrices",
    "CatLearn.Proc.C265_pointwise",
    "CatLearn.Proc.C265_append",
    "CatLearn.FixedBasis.C265_basis",
    "CatLearn.Est.C265_transform"
   ],
   "note": "C265_matrices: C265: the calculation with matrices (covariance of all test points with all training points, products of matrices, diagonal of the covariance of the test points) gives what `predict` of the model gives point by point, errors included. | C265_pointwise: C265: predicting many points is predicting each of them on its own. If a prediction for a list of points succeeds, it has one entry for every point, and the prediction and the uncertainties in position `i` are those of a call with the point alone; if it fails for a list of points, every call with one of the points fails in the same way. | C265_append: C265: appending the lists of test points appends the predictions; no test points at all are refused. | C265_basis: C265, with basis functions: the predictions and covariances of some of the test points, in any order and repeated if wanted, are those computed together with the other test points. | C265_transform: C265, for the general estimator: what `transform` makes of new rows depends on no other row; if it fails for some rows it fails in the same way for any others."
  },
  {
   "property": "C266",
   "status": "partial",
   "theorems": [
    "CatLearn.Props.C266_blocks_partial",
    "CatLearn.Props.C266_numbering",
    "CatLearn.Props.C266_one_element_violated",
    "CatLearn.Props.C266_block_violated",
    "CatLearn.Props.C266_two_elements_partial"
   ],
   "note": "C266_blocks_partial: C266 (partial: what the blocks contain). `connections_vec` returns one block of `max_bonds` numbers for every element of `atom_types`, in their order; every block counts every atom of the structure once. In the block of element `an` the atoms are counted by the number of their bonds between atoms that are *not* of that element. Elements outside `atom_types` are accepted, and `atom_types` is set by the first structure if it was missing. | C266_one_element_violated: C266 is violated: the block of an element says nothing about the atoms of that element. For a particle of one element every atom is counted as having no connection, whatever its shape, and the histogram of its distances is that of no atom. | C266_block_violated: C266 is violated: bonds of atoms of an element can be changed at will without any effect on the block of this element. | C266_two_elements_partial: C266 (partial: two elements). The two blocks are exchanged: from one connection upwards the second one counts the atoms of the first element by their number of neighbours of the first element, and the other way round; the second histogram is that of the atoms of the first element."
  },
  {
   "property": "C267",
   "status": "partial",
   "theorems": [
    "CatLearn.Props.C267_blocks_partial",
    "CatLearn.Props.C267_lengths_violated",
    "CatLearn.Props.C267_set_order_violated"
   ],
   "note": "C267_blocks_partial: C267 (partial: one structure and one order of its elements). `rdf_vec` has `nbin` numbers for every ordered pair of elements of the structure; those of a pair are its partial radial distribution function. | C267_lengths_violated: C267 is violated: the vectors of structures with different numbers of elements have different lengths; there are no names that tell the pairs. | C267_set_order_violated: C267 is violated: the same elements in another order of the set give another vector, as soon as the functions of the two elements differ."
  },
  {
   "property": "C268",
   "status": "proved",
   "theorems": [
    "CatLearn.MLMin.C268_run",
    "CatLearn.MLMin.C268_init",
    "CatLearn.MLMin.C268_fit",
    "CatLearn.MLMin.C268_moved"
   ],
   "note": "C268_run: C268: two runs about the same structure and landscape, one of them moved in space and with another zero of the energy, end in the same way after the same number of iterations; all evaluated structures are those of the other run, moved, with the same forces. | C268_init: C268, the constructor: moved structures with shifted energies give the object moved, or the same error; also the same previous calculations are kept. | C268_fit: C268, the Gaussian process: trained on the moved structures with shifted energies and with the same hyperparameters, it fails with the same error or predicts the same energies (relative to the largest one seen) and uncertainties at the moved places. | C268_moved: C268: a minimisation from the moved structure, with moved previous calculations and energies larger by `c`, with the Gaussian process, ends like the one from the original structure: everything evaluated is moved by `t`."
  },
  {
   "property": "C269",
   "status": "proved",
   "theorems": [
    "CatLearn.MLNEB.C269_run",
    "CatLearn.MLNEB.C269_force"
   ],
   "note": "C269_run: C269: a search for a saddle point does not depend on the place and orientation of the structures nor on the zero of the energy: if the second search is about the same structures, moved, with all energies larger by `c`, then it makes the same evaluations in the same order at the moved structures, ends or raises in the same way, and its tables are the moved ones, with energies larger by `c` and the same forces, numbers of images, iterations and evaluations. | C269_force: C269: turning all atoms about an axis, or reflecting them, leaves the largest force as it is, so that a landscape that is turned meets the hypothesis about forces."
  },
  {
   "property": "C270",
   "status": "proved",
   "theorems": [
    "CatLearn.GradProc.C270_axes",
    "CatLearn.GradProc.C270_likelihood",
    "CatLearn.GradProc.C270_widths_differ",
    "CatLearn.Surrogate.C270_surrogate"
   ],
   "note": "C270_axes: C270: the axes of the features do not matter to a model trained on values and gradients with Gaussian kernels of one width, constants and noise: with all features turned by an orthogonal matrix and shifted, and the gradients turned alike, it can be made or not as before, and predictions, uncertainties and errors at turned points are the same. | C270_likelihood: C270: the likelihood of such data is the same, whatever the hyperparameters: the determinant of the covariance and the quadratic form of the targets are. | C270_widths_differ: Two widths do know directions: after a quarter turn the same two points are no longer as similar. | C270_surrogate: C270: the surrogate of `MLNEB` does not depend on the place and orientation of the structures nor on the zero of the energy: if the free coordinates are turned by an orthogonal matrix and shifted, the gradients turned alike, and `c` is added to the energies, then training raises the same errors, and at moved positions the energy is larger by `c` and the uncertainty is the same."
  },
  {
   "property": "C271",
   "status": "proved",
   "theorems": [
    "CatLearn.MLMin.C271_mlmin",
    "CatLearn.MLMin.C271_mlneb"
   ],
   "note": "C271_mlmin: C271, `MLMin`: the forces that the surrogate calculator reports, with a trained Gaussian process, are minus the derivatives of the energy that it reports, up to a term of second order in the step `fs` of the differences; coordinates that the constraints remove have no force, and the energy does not depend on them. | C271_mlneb: C271, `MLNEB`: the same for the images of a path."
  },
  {
   "property": "C272",
   "status": "partial",
   "theorems": [
    "CatLearn.Proc.C272_likelihood_partial",
    "CatLearn.Proc.C272_scaled_partial",
    "CatLearn.Proc.C272_reported_violated",
    "CatLearn.Proc.C272_wrong_likelihood_violated"
   ],
   "note": "C272_likelihood_partial: C272: after optimising the likelihood the model reports the logarithm of the density of its targets under the prior of its new kernels and regularisation, which is not below the one before; data and options stay, and the model can predict with the new covariance. | C272_scaled_partial: C272 with `scale_data=True`, for the standardised data that the model keeps; targets that are all equal have no likelihood (C114_scaled). | C272_reported_violated: C272 fails for the other losses 'rmse' and 'absolute': whatever the data, the kernels and the minimiser, the log marginal likelihood reported after the optimisation is zero. | C272_wrong_likelihood_violated: C272 fails: the likelihood reported after an optimisation with the loss 'rmse' or 'absolute' is not that of the model."
  },
  {
   "property": "C273",
   "status": "partial",
   "theorems": [
    "CatLearn.DB.C273_named",
    "CatLearn.DB.C273_unnamed_partial",
    "CatLearn.DB.C273_first_violated",
    "CatLearn.DB.C273_taken_violated"
   ],
   "note": "C273_unnamed_partial: C273: without a symbol the number of the parameter becomes its symbol. | C273_first_violated: C273 fails: the first parameter of a database cannot be entered without a symbol, the call raises TypeError. | C273_taken_violated: C273 fails: when an earlier parameter has the next number as its symbol, the parameter is not entered, and its symbol stands for the earlier one."
  },
  {
   "property": "C274",
   "status": "proved",
   "theorems": [
    "CatLearn.Proc.C274_prediction",
    "CatLearn.Proc.C274_uncertainty"
   ],
   "note": "C274_prediction: C274: far from the data the prediction falls back to zero, or with `scale_data` to the mean of the training targets. | C274_uncertainty: C274: and the uncertainty rises to that of the prior, the same everywhere, in the units of the targets."
  },
  {
   "property": "C275",
   "status": "proved",
   "theorems": [
    "CatLearn.Proc.C275_prediction",
    "CatLearn.Proc.C275_uncertainty"
   ],
   "note": "C275_prediction: C275: predictions are a continuous function of the features. | C275_uncertainty: C275: so are uncertainties."
  },
  {
   "property": "C276",
   "status": "proved",
   "theorems": [
    "CatLearn.Proc.C276_repeat"
   ],
   "note": "C276_repeat: C276: repeated measurements. A model that is trained on its points `m` times, each time with targets of their own, is the model of the averaged targets with the regularisation (a standard deviation, possibly as a logarithm) divided by the square root of `m`: it can be built, too, and gives the same predictions and the same uncertainties."
  },
  {
   "property": "C277",
   "status": "proved",
   "theorems": [
    "CatLearn.RidgeSearch.C277_repeated",
    "CatLearn.RidgeSearch.C277_predicted",
    "CatLearn.RidgeSearch.C277_same_feature",
    "CatLearn.RidgeSearch.C277_multiple",
    "CatLearn.RidgeSearch.C277_zero_feature",
    "CatLearn.RidgeSearch.C277_sum",
    "CatLearn.RidgeSearch.C277_exact"
   ],
   "note": "C277_repeated: C277: when every data point is measured once for each element of `r`, ridge regression of all measurements gives the coefficients of ridge regression of the averages, with the regularisation divided by the number of repetitions. | C277_predicted: C277: a data point that the model already predicts exactly does not change the coefficients. | C277_same_feature: C277: features with the same values have the same coefficient. | C277_multiple: C277: without a prior, the coefficient of a feature whose values are `c` times those of another is `c` times the coefficient of that feature; with `c = -1` it is the opposite. | C277_zero_feature: C277: a feature that is zero for all data has the prior as coefficient, and the coefficients of the other features are those without it. | C277_sum: C277: the coefficients of a sum of targets (and of priors) are the sums of the coefficients. | C277_exact: C277: targets that are given exactly by coefficients equal to the prior are fitted exactly."
  },
  {
   "property": "C278",
   "status": "proved",
   "theorems": [
    "CatLearn.RidgeSearch.C278_monotone",
    "CatLearn.RidgeSearch.C278_bound",
    "CatLearn.RidgeSearch.C278_limit"
   ],
   "note": "C278_monotone: C278: a larger regularisation never fits the training data better, and never gives coefficients farther from the prior. | C278_bound: C278: the coefficients are never farther from the prior than allowed by the targets: `ω²` times the squared distance to the prior is at most the sum of squared errors of the prior, so the coefficients tend to the prior for large `ω²`. | C278_limit: C278: every coefficient tends to the prior as the regularisation grows."
  },
  {
   "property": "C279",
   "status": "proved",
   "theorems": [
    "CatLearn.Proc.C279_update",
    "CatLearn.Proc.C279_agrees",
    "CatLearn.Proc.C279_proportional"
   ],
   "note": "C279_update: C279: one more measurement `y` at the point `x`. With prediction `m` and uncertainty `u` of the first model at `x`, and `s` the square of the regularisation: the new prediction at `x` is the mean of `m` and `y`, weighted with the inverse of their variances `u²` and `s`, and the new variance at `x` is the inverse of the sum of these weights; at any other point `z` the square of the change of the prediction is the reduction of the variance times `(y - m)² / (u² + s)`. | C279_agrees: C279: a measurement that agrees with the prediction changes no prediction. | C279_proportional: C279: predictions change in proportion to what is measured: the ratio of the change of a prediction to the difference of measurement and prediction does not depend on the measurement (nor do uncertainties)."
  },
  {
   "property": "C280",
   "status": "proved",
   "theorems": [
    "CatLearn.Proc.C280_chain",
    "CatLearn.Proc.C280_sum",
    "CatLearn.Proc.C280_nearer"
   ],
   "note": "C280_chain: C280: the logarithm of the likelihood of a model with one more measurement `y` at `x` is that of the model without it plus the logarithm of the normal density of `y` around the prediction at `x`, with the predicted variance and the square of the regularisation as variance. | C280_sum: C280 for any number of further measurements, one after another: the logarithm of the likelihood grows by the logarithms of the normal densities of the measurements around what the models before them predict. | C280_nearer: C280: of two possible measurements at the same point, the one nearer to the prediction gives the larger likelihood."
  },
  {
   "property": "C281",
   "status": "proved",
   "theorems": [
    "CatLearn.Proc.C281_fit",
    "CatLearn.Proc.C281_uncertainty",
    "CatLearn.Proc.C281_at_data",
    "CatLearn.Proc.C281_limit"
   ],
   "note": "C281_fit: C281: with more regularisation the sum of squared errors on the training data is larger or the same, and the sum of squared predictions is never larger than that of the targets. | C281_uncertainty: C281: with more regularisation the uncertainty of every prediction is larger or the same. | C281_at_data: C281: at the points of the training data the uncertainty is at most the regularisation. | C281_limit: C281: with ever more regularisation the prediction tends to zero and the variance to the one without data."
  },
  {
   "property": "C282",
   "status": "proved",
   "theorems": [
    "CatLearn.GradProc.C282_order"
   ],
   "note": "C282_order: C282: a model made of the same points with their targets and gradients in another order can be made or not, and makes the same predictions and uncertainties, with or without scaling of the data."
  },
  {
   "property": "C283",
   "status": "proved",
   "theorems": [
    "CatLearn.GradProc.C283_more_data"
   ],
   "note": "C283_more_data: C283: of two models without scaling of the data, one of which has further points with their targets and gradients besides those of the other one (in any order), that one predicts uncertainties that are never larger."
  },
  {
   "property": "C284",
   "status": "proved",
   "theorems": [
    "CatLearn.GradProc.C284_linear",
    "CatLearn.GradProc.C284_any"
   ],
   "note": "C284_linear: C284: without scaling, the predictions of a model are linear in the targets and gradients it is made of, and uncertainties do not depend on them: the model of a combination of two sets of targets and gradients at the same points can be made, predicts the same combination of the two predictions, and has the same uncertainties. | C284_any: Any targets and gradients may be given."
  },
  {
   "property": "C285",
   "status": "proved",
   "theorems": [
    "CatLearn.GradProc.C285_settles",
    "CatLearn.GradProc.C285_prior",
    "CatLearn.GradProc.C285_uncertainty"
   ],
   "note": "C285_settles: C285: far from the data the prediction of a model made with gradients tends to one value, the same in all directions, whatever constant kernels there are besides Gaussian and noise kernels and however they are combined. | C285_prior: C285: with Gaussian and noise kernels only it falls back to zero, or with `scale_data` to the mean of the training targets. | C285_uncertainty: C285: and the uncertainty tends to that of the prior, the same everywhere, which it never exceeds."
  },
  {
   "property": "C286",
   "status": "proved",
   "theorems": [
    "CatLearn.GradProc.C286_nothing_new",
    "CatLearn.GradProc.C286_slopes"
   ],
   "note": "C286_nothing_new: C286: a point whose target and gradient are those a model already predicts teaches it nothing: the model with this point besides the others makes the same predictions everywhere. | C286_slopes: C286: there is such a target and gradient for every point: predictions have slopes everywhere."
  },
  {
   "property": "C287",
   "status": "proved",
   "theorems": [
    "CatLearn.Proc.C287_widths",
    "CatLearn.Proc.C287_constant"
   ],
   "note": "C287_widths: C287: as the widths of some features grow, predictions and uncertainties tend to those of the model whose kernels do not use these features. (`tStd` is the standard deviation of the targets; scaled targets without one are nan.) | C287_constant: C287: features that have the same value in all training and test points need not be given to the kernels: predictions and uncertainties are the same without them."
  },
  {
   "property": "C288",
   "status": "partial",
   "theorems": [
    "CatLearn.Magpie.C288_files",
    "CatLearn.Magpie.C288_rows_partial",
    "CatLearn.Magpie.C288_rows",
    "CatLearn.Magpie.C288_rows_violated",
    "CatLearn.Magpie.C288_directory"
   ],
   "note": "C288_rows_partial: The rows of the table are those of the structures Magpie can do, in their order. | C288_rows_violated: If Magpie leaves a structure out, the rows that follow move up, and the column that would tell is dropped: the first row belongs to the second structure, and the table is the same as that of the second structure alone."
  },
  {
   "property": "C289",
   "status": "partial",
   "theorems": [
    "CatLearn.Magpie.C289_sites_partial",
    "CatLearn.Magpie.C289_sites_violated",
    "CatLearn.Magpie.C289_lines",
    "CatLearn.Magpie.C289_rows_partial",
    "CatLearn.Magpie.C289_unlisted",
    "CatLearn.Magpie.C289_default_violated",
    "CatLearn.Magpie.C289_missing"
   ],
   "note": "C289_sites_partial: In Python 2 the sites are taken in the order of their names, each once. | C289_sites_violated: In Python 3 no description of the sites can be made, not even the default one. | C289_rows_partial: In Python 2, if the properties include the sites and all structures have them, row `k` of the table of `generate_all` consists of the number, the formula and the properties of structure `k` and of the fingerprint Magpie computed from them, in whatever order Magpie wrote them. The formula names the elements on the sites in the order of the names of the sites; a property that a structure does not have is empty. | C289_default_violated: With the default `properties=[]` no table is made, whatever the sites are, unless there are none."
  },
  {
   "property": "C290",
   "status": "partial",
   "theorems": [
    "CatLearn.Acq.C290_slopes",
    "CatLearn.Acq.C290_improvement",
    "CatLearn.Acq.C290_probability",
    "CatLearn.Acq.C290_certain_partial",
    "CatLearn.Acq.C290_certain_violated"
   ],
   "note": "C290_certain_partial: In arrays, entries with an uncertainty behave as above, and entries whose uncertainty vanishes have the limits of the above, if the prediction differs from the best value. | C290_certain_violated: A candidate with the best value and no uncertainty, such as the best training point of a model without noise, has no score: EI and PI are NaN."
  },
  {
   "property": "C291",
   "status": "proved",
   "theorems": [
    "CatLearn.Proc.C291_change",
    "CatLearn.Proc.C291_gaussian"
   ],
   "note": "C291_change: From one point to another: the uncertainty changes by at most the distance of the points as the kernels see it, whose square is the variance of the difference before any data; the prediction changes by at most this distance times the root of a number that depends on the data only and is at most the sum of the squared targets divided by the square of the regularisation. | C291_gaussian: With a Gaussian kernel, `s` being its scaling: the uncertainty changes by at most the root of `s` times the distance of the two points in units of the widths, and the prediction by at most this times a number that depends on the data only."
  },
  {
   "property": "C292",
   "status": "proved",
   "theorems": [
    "CatLearn.GradProc.C292_fit",
    "CatLearn.GradProc.C292_uncertainty",
    "CatLearn.GradProc.C292_at_data",
    "CatLearn.GradProc.C292_exact_limit",
    "CatLearn.GradProc.C292_limit"
   ],
   "note": "C292_fit: C292: of two models of the same values and gradients, the one with the larger regularisation is not closer to them. | C292_uncertainty: C292: the model with the larger regularisation is not more certain at any point, whatever the targets and gradients are. | C292_at_data: C292: at the training points the uncertainty is at most the regularisation. | C292_exact_limit: C292: if the values and gradients can be fitted exactly (the model without regularisation can be made), the squared errors of a model vanish with the fourth power of its regularisation. | C292_limit: C292: and its predictions at any point tend to those of the model without regularisation, with the square of the regularisation."
  },
  {
   "property": "C293",
   "status": "proved",
   "theorems": [
    "CatLearn.Surrogate.C293_uncertainty",
    "CatLearn.Surrogate.C293_too_strict",
    "CatLearn.Surrogate.C293_known"
   ],
   "note": "C293_uncertainty: C293: the uncertainty of the surrogate of `MLNEB` is nowhere below the noise of the energies that the training found, which is from 0.001 to 0.005, and at every structure that was evaluated (or has the same free coordinates) at most the root of two times this noise. | C293_too_strict: C293: with `unc_convergence` at most 0.002 no run of `MLNEB` converges, whatever the forces are. | C293_known: C293: with `unc_convergence` above 0.0142 (it is 0.05 by default) the uncertainty is no obstacle once the surrogate was trained on all interior images: then a pass of the loop reports convergence exactly if the largest force on the structure it evaluated is at most `fmax` and the path has the number of images that was asked for."
  },
  {
   "property": "C294",
   "status": "partial",
   "theorems": [
    "CatLearn.SiteNames.C294_name",
    "CatLearn.SiteNames.C294_defect",
    "CatLearn.SiteNames.C294_same_partial",
    "CatLearn.SiteNames.C294_same_violated",
    "CatLearn.SiteNames.C294_element"
   ],
   "note": "C294_same_partial: Structures of one composition have one name if the sets of their symbols are listed in one order. | C294_same_violated: **Violation.** The elements come in the order of a set of strings, which differs from one run of Python to the next: every structure of two or more elements has, whatever the name given to it, another name it can be given as well."
  },
  {
   "property": "C295",
   "status": "partial",
   "theorems": [
    "CatLearn.SiteNames.C295_key",
    "CatLearn.SiteNames.C295_last",
    "CatLearn.SiteNames.C295_found_partial",
    "CatLearn.SiteNames.C295_found_violated",
    "CatLearn.SiteNames.C295_missing",
    "CatLearn.SiteNames.C295_ignored",
    "CatLearn.SiteNames.C295_fails"
   ],
   "note": "C295_found_partial: If the files of one sequence of symbols agree on the energy, then the energy in every file is found under the key of its atoms. | C295_found_violated: **Violation.** Of two files with the same symbols and unlike energies (two arrangements of one surface, say) one is silently lost: which one depends on the order in which the system lists the folder."
  },
  {
   "property": "C296",
   "status": "proved",
   "theorems": [
    "CatLearn.GradProc.C296_change",
    "CatLearn.GradProc.C296_gaussian",
    "CatLearn.Surrogate.C296_surrogate"
   ],
   "note": "C296_change: C296: from one point to another the uncertainty changes by at most the distance of the points as the kernels see it, and the prediction by at most this distance times the root of a number that depends on the data only and is at most the sum of the squared targets and gradients divided by the square of the regularisation. | C296_gaussian: C296: with one Gaussian kernel. | C296_surrogate: C296: the surrogate of `MLNEB`, whose widths are at least 0.1 (L679): from one structure to another its uncertainty changes by at most ten times the distance of the free coordinates times the standard deviation of its kernel, and its energy by at most this times a number that depends on the data only; so a structure at this distance of one that was evaluated has at most this uncertainty, besides the noise."
  },
  {
   "property": "C297",
   "status": "proved",
   "theorems": [
    "CatLearn.GradProc.C297_repeat"
   ],
   "note": "C297_repeat: C297: repeated values and gradients. A model that is made with its points `m` times, each time with values and gradients of their own, is the model of the averaged values and gradients with the regularisation divided by the square root of `m`: it can be made, too, and gives the same predictions and the same uncertainties."
  },
  {
   "property": "C298",
   "status": "partial",
   "theorems": [
    "CatLearn.GradProc.C298_units_partial",
    "CatLearn.GradProc.C298_units_violated"
   ],
   "note": "C298_units_partial: C298: the units of a model of values and gradients. Where lengths are `c` and values `e` times as large, with widths, scalings and noise in the new units, the model can be made, too, and its predictions, its uncertainties and their errors are those of the model in the old units, `e` times as large. Missing: the regularisation is one number for values and slopes, so that it must be absent or zero unless lengths keep their unit. | C298_units_violated: C298: with regularisation units do matter, whatever the regularisation in the new units: a point at zero with value and slope one, a kernel of width one and a regularisation of one. Where lengths are twice as large, no regularisation gives the same predictions."
  },
  {
   "property": "C299",
   "status": "proved",
   "theorems": [
    "CatLearn.GradProc.C299_order"
   ],
   "note": "C299_order: C299: the order of the features is immaterial to a model of values and gradients: with the features, the components of the gradients and the widths of the kernels in another order it can be made or not as before, and gives the same predictions, uncertainties and errors, with or without scaling of the data."
  },
  {
   "property": "C300",
   "status": "proved",
   "theorems": [
    "CatLearn.GradProc.C300_frozen"
   ],
   "note": "C300_frozen: C300: a coordinate that never changes does not matter, nor do the slopes along it. If a model of values and gradients can be made with a further feature that has the same value `v` at all points, whatever the slopes along it and its width, then it can be made without it, and gives the same predictions and uncertainties at all points that share the value `v`."
  },
  {
   "property": "C301",
   "status": "proved",
   "theorems": [
    "CatLearn.GradProc.C301_amplitude"
   ],
   "note": "C301_amplitude: C301: a covariance of values and gradients that is `e²` times as large, together with a regularisation `e` times as large, leaves all predictions and errors as they are and makes uncertainties `e` times as large, with or without scaling of the data."
  },
  {
   "property": "C302",
   "status": "proved",
   "theorems": [
    "CatLearn.GradProc.C302_forgotten"
   ],
   "note": "C302_forgotten: C302: gradients with large noise do not influence the model: as the noise on slopes grows, predictions and uncertainties tend to those of the model that is given the values only."
  },
  {
   "property": "C303",
   "status": "partial",
   "theorems": [
    "CatLearn.Proc.C303_far_partial",
    "CatLearn.Proc.C303_scaled_violated"
   ],
   "note": "C303_far_partial: C303 (`_partial`: without `scale_data`, which breaks it): a further training point that is far away does not influence the model: as the point moves away, with any bounded target, the predictions and uncertainties at all other points tend to those of the model without it. | C303_scaled_violated: C303 fails with `scale_data`: a far point makes the standard deviation of the features large, so that all other points become the same to the kernels. Of the values -1 and 1 at the points -1 and 1, a model with a third point far away predicts the same in the end."
  },
  {
   "property": "C304",
   "status": "partial",
   "theorems": [
    "CatLearn.Proc.C304_errors_partial",
    "CatLearn.Proc.C304_one_partial",
    "CatLearn.Proc.C304_scaled_violated"
   ],
   "note": "C304_errors_partial: C304 (`_partial`: without `scale_data`, which breaks it): of two models that differ in their targets, the predictions at the training points differ, in the sum of squares, by at most as much as the targets do, and at any point the squared difference of the predictions is at most that of the targets divided by the square of the regularisation, times the variance that the data has taken away at the point. | C304_one_partial: C304, one target (`_partial`: without `scale_data`): when the target of one training point is changed, the prediction at the point moves the same way, by at most as much as the target. | C304_scaled_violated: C304 fails with `scale_data`: the mean of the targets is added to the predictions unchanged, so that with kernels that do not see it the predictions move together. Of the values 11, 8 and 11 at the points -1, 0 and 1, with the product of two linear kernels, the model predicts 119/11, 10 and 119/11, and with the signs of the values changed the opposite."
  },
  {
   "property": "C305",
   "status": "proved",
   "theorems": [
    "CatLearn.RidgeSearch.C305_errors",
    "CatLearn.RidgeSearch.C305_one"
   ],
   "note": "C305_errors: C305: of two ridge regressions that differ in their targets, the sum of the squared differences of the predictions of the training data and twice the regularisation times that of the coefficients is at most that of the targets. | C305_one: C305: when the target of one data point is changed, the prediction at the point moves the same way, by at most as much as the target."
  },
  {
   "property": "C306",
   "status": "proved",
   "theorems": [
    "CatLearn.Props.C306_more",
    "CatLearn.Props.C306_order",
    "CatLearn.Props.C306_units",
    "CatLearn.Props.C306_exclusive",
    "CatLearn.Props.C306_change"
   ],
   "note": "C306_more: C306: with more training data no point gets a smaller penalty for being too close, and none a larger one for being too far. | C306_order: C306: the order of the training data and repeated data are immaterial. | C306_units: C306: in other units, axes or origins of the features — a map that multiplies all distances by `b` — with the critical distance in the same units, the penalties are multiplied by the square of `b`. | C306_exclusive: C306: when the critical distance of points too close is at most that of points too far, no point gets both penalties. | C306_change: C306: the roots of the penalties of two points differ by at most the root of the constant times the distance of the points: the penalties are continuous, also at the critical distance."
  },
  {
   "property": "C307",
   "status": "proved",
   "theorems": [
    "CatLearn.GradProc.C307_errors"
   ],
   "note": "C307_errors: C307: of two models that differ in values and gradients, the predicted values and gradients of the training data differ, in the sum of squares, by at most as much as the values and gradients given do; at any point the uncertainties are the same and the squared difference of the predictions is at most that sum divided by the square of the regularisation, times the variance that the data has taken away at the point."
  },
  {
   "property": "C308",
   "status": "proved",
   "theorems": [
    "CatLearn.Pot.C308_rosenbrock",
    "CatLearn.Pot.C308_himmelblau",
    "CatLearn.Pot.C308_goldstein",
    "CatLearn.Pot.C308_goldstein_rest",
    "CatLearn.Pot.C308_multiModal",
    "CatLearn.Pot.C308_mullerBrown"
   ],
   "note": "C308_rosenbrock: C308, Rosenbrock: the energy is nowhere negative, it vanishes at (1, 1) only, and the atoms are at rest there only. | C308_himmelblau: C308, Himmelblau: the energy is nowhere negative; where it vanishes — on both parabolas, for instance at (3, 2) — the atoms are at rest. | C308_goldstein: C308, Goldstein-Price: the lowest energy is 0.03, at (0, -1) only. | C308_goldstein_rest: C308, Goldstein-Price: the atoms are at rest at nine points, and at these only. | C308_multiModal: C308, MultiModal: the energy is negative everywhere and above minus the sum of the depths of the wells. | C308_mullerBrown: C308, Müller-Brown with its default parameters (L83-86): the energy is above -4.7 everywhere."
  },
  {
   "property": "C309",
   "status": "proved",
   "theorems": [
    "CatLearn.Proc.C309_bound",
    "CatLearn.Proc.C309_loss",
    "CatLearn.Proc.C309_larger",
    "CatLearn.Proc.C309_units",
    "CatLearn.Proc.C309_sharp"
   ],
   "note": "C309_bound: C309: the log marginal likelihood of `n` training points is at most that of `n` targets that are zero and nothing but noise of the size of the regularisation, whatever the kernels are; with and without scaling of the data. | C309_loss: C309: so no hyperparameters make the loss that is minimised smaller than a number that depends on the regularisation only. | C309_larger: C309: larger targets are less likely. If all targets are multiplied by `c` of magnitude at least one, the likelihood does not increase. | C309_units: C309: the unit of the targets. Targets, standard deviations and regularisation `c` times as large, that is with a covariance `c²` times as large, change the log marginal likelihood by `n * log c`, the same for all kernels (hyperparameters not on a log scale). | C309_sharp: C309: the bound on the loss is reached, for every regularisation."
  },
  {
   "property": "C310",
   "status": "proved",
   "theorems": [
    "CatLearn.RidgeSearch.C310_between",
    "CatLearn.RidgeSearch.C310_point",
    "CatLearn.RidgeSearch.C310_loocv",
    "CatLearn.RidgeSearch.C310_zero"
   ],
   "note": "C310_between: C310: the prediction of a training point lies between its target and what the model predicts that is fitted without the point. | C310_point: C310: so the error of a point that was left out is at least its training error. | C310_loocv: C310: the estimate of leaving one out that is computed from the singular values is at least the root mean squared training error. | C310_zero: C310: all points are fitted exactly if all are predicted exactly when they are left out, and then all the models agree."
  },
  {
   "property": "C311",
   "status": "proved",
   "theorems": [
    "CatLearn.RidgeSearch.C311_monotone",
    "CatLearn.RidgeSearch.C311_limit",
    "CatLearn.RidgeSearch.C311_bounds",
    "CatLearn.RidgeSearch.C311_zero"
   ],
   "note": "C311_monotone: C311: the effective number of parameters does not depend on targets and prior, and more regularisation never makes it larger. | C311_limit: C311: it tends to zero as the regularisation grows. | C311_bounds: C311: it is at most the number of data points, and smaller than the number of features. | C311_zero: C311: of data without variation, all features zero, there are no effective parameters."
  },
  {
   "property": "C312",
   "status": "proved",
   "theorems": [
    "CatLearn.Err.C312_units",
    "CatLearn.Err.C312_parts",
    "CatLearn.Err.C312_between",
    "CatLearn.Err.C312_triangle"
   ],
   "note": "C312_units: C312: predictions and targets in another unit and with another zero have errors that are all converted with the unit. | C312_parts: C312: the errors of two parts of the data add up to the errors of the whole, weighted with the numbers of data: signed and absolute errors themselves, root mean squared errors by their squares. | C312_between: C312: so the error of the whole lies between the errors of the parts. | C312_triangle: C312: the mean absolute error against a third set of values is at most the sum of the errors on the way."
  },
  {
   "property": "C313",
   "status": "proved",
   "theorems": [
    "CatLearn.Proc.C313_left_out"
   ],
   "note": "C313_left_out: C313: the model of all data and the model without the training point `(x, y)`, wherever it is in the data. The prediction at `x` of the first lies between `y` and the prediction of the second, and error and uncertainty of the second follow from those of the first."
  },
  {
   "property": "C314",
   "status": "proved",
   "theorems": [
    "CatLearn.GradProc.C314_left_out"
   ],
   "note": "C314_left_out: C314: the model of all data and the model without the training point `(x, y, g)`, wherever it is in the data: at `x`, value and slopes of the first have gone from those of the second towards `y` and `g`, without going past them, so that they are nearer to them in the sum of squares, and have gone no further than that."
  },
  {
   "property": "C315",
   "status": "partial",
   "theorems": [
    "CatLearn.Acq.C315_explore_partial",
    "CatLearn.Acq.C315_exploit_partial",
    "CatLearn.Acq.C315_most_uncertain",
    "CatLearn.Acq.C315_exploit_violated"
   ],
   "note": "C315_explore_partial: What remains of C315 for both objectives and, as the predictions are concerned, for 'min': of two values of kappa the larger one puts a candidate first that is at least as uncertain and, minimising, has no lower prediction. | C315_exploit_partial: What remains of C315: with kappa zero, minimising puts the lowest prediction first. | C315_exploit_violated: C315 does not hold for 'max' as the predictions are concerned (see C34): with kappa zero the lowest prediction always comes first, so that with two different predictions the better one does not."
  },
  {
   "property": "C316",
   "status": "proved",
   "theorems": [
    "CatLearn.Proc.C316_constant",
    "CatLearn.Proc.C316_shrunk"
   ],
   "note": "C316_constant: C316: with a constant kernel only, all points have the same prediction, the mean of the targets shrunk towards zero, and the same uncertainty, whatever the features are. | C316_shrunk: C316: the prediction is a multiple of the mean of the targets, between zero and the mean; of two constants the larger one predicts nearer to the mean."
  },
  {
   "property": "C317",
   "status": "proved",
   "theorems": [
    "CatLearn.RidgeSearch.C317_intercept"
   ],
   "note": "C317_intercept: C317: a Gaussian process with a linear kernel of scaling `s` and a constant kernel `c` is ridge regression with the regularisation `r²` of the features times the root of `s` and a further column with the root of `c`, whose coefficient gives the intercept."
  },
  {
   "property": "C318",
   "status": "proved",
   "theorems": [
    "CatLearn.Proc.C318_formula",
    "CatLearn.Proc.C318_distance"
   ],
   "note": "C318_formula: C318: one training point, a gaussian kernel with scaling `s` and one width for each feature: prediction and uncertainty at any point depend on the distance in units of the widths only. | C318_distance: C318: predictions lie between zero and the target; a point that is further away from the training point has a prediction nearer to zero and no smaller uncertainty."
  },
  {
   "property": "C319",
   "status": "proved",
   "theorems": [
    "CatLearn.Proc.C319_order",
    "CatLearn.Proc.C319_merge",
    "CatLearn.Proc.C319_zero",
    "CatLearn.Proc.C319_first",
    "CatLearn.Proc.C319_factor"
   ],
   "note": "C319_order: C319: kernels that are added can be listed in any order. | C319_merge: C319: two added kernels that differ in the scaling only are one kernel with the sum of the scalings. | C319_zero: C319: an added kernel of scaling zero can be left out. | C319_first: C319: a kernel marked as a factor multiplies the kernels listed before it; at the head of the list it has no effect at all. | C319_factor: C319: a constant factor at the end of the list is the same as scaling all the kernels that are added by it."
  },
  {
   "property": "C320",
   "status": "proved",
   "theorems": [
    "CatLearn.GradProc.C320_order",
    "CatLearn.GradProc.C320_merge",
    "CatLearn.GradProc.C320_zero",
    "CatLearn.GradProc.C320_first"
   ],
   "note": "C320_order: C320: kernels that are added can be listed in any order in which a kernel with several parameters for noise or constants, if there is one, is the last. | C320_merge: C320: two added kernels that differ in the scaling only are one kernel with the sum of the scalings. | C320_zero: C320: an added kernel of scaling zero can be left out (the kernel with three constants excepted, which does not allow uncertainties). | C320_first: C320: a kernel marked as a factor has no effect at the head of the list."
  },
  {
   "property": "C321",
   "status": "proved",
   "theorems": [
    "CatLearn.GradProc.C321_gradients",
    "CatLearn.Proc.C321_noise"
   ],
   "note": "C321_gradients: C321: in a model of values and gradients, a noise kernel with the same noise for both at the end of the list acts on predictions as a larger regularisation, and adds its variance to that of every prediction (without scaling of the data, where uncertainties are in units of the targets). | C321_noise: C321: a noise kernel at the end of the list acts on predictions as a larger regularisation; other than the regularisation, it is part of the uncertainty too: the variance at every point is larger by the variance of the noise."
  }
 ]
}