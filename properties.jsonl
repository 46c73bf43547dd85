{"id": "C01", "title": "k-fold splitting loses and duplicates nothing", "statement": "k_fold(features, nsplit, targets) returns exactly nsplit folds whose concatenation is a permutation of the input rows; every row travels with its own target; fold sizes differ by at most one.", "quantifier": "every data set, every nsplit >= 1 and every permutation the shuffle may produce", "why_tests_cant": "the shuffle has n! outcomes and n, nsplit are unbounded; a test sees a few seeds on one matrix", "anchors": ["catlearn/cross_validation/k_fold_cv.py: k_fold"]}
{"id": "C02", "title": "fixed-size k-fold has the requested size and stays disjoint", "statement": "k_fold(..., fix_size=s) returns nsplit folds of exactly s rows each, pairwise disjoint as positions and drawn from the input, whenever nsplit*s rows are available.", "quantifier": "every data set, nsplit, fix_size with nsplit*fix_size <= number of rows, and every shuffle", "why_tests_cant": "The fold size, the number of folds and the number of rows interact through integer division and slicing; a test fixes one triple and one seed, while an overlap or a short fold appears only for particular remainders.", "anchors": ["catlearn/cross_validation/k_fold_cv.py: k_fold"]}
{"id": "C03", "title": "hierarchy subsets partition the data at every level", "statement": "After Hierarchy.split_index(min_split), at every level that is written the subsets form a partition of all row indices, there are exactly 2^level subsets on a level, sizes differ by at most one, and no subset is smaller than min_split; levels run contiguously from 1.", "quantifier": "every number of rows, every min_split and max_split and every permutation produced by the shuffle", "why_tests_cant": "The recursion depth and the halving of odd subsets depend on the number of rows, and the shuffle has n! outcomes; a test with one data size cannot rule out a lost or doubled row at a deeper level.", "anchors": ["catlearn/cross_validation/hierarchy_cv.py: Hierarchy.split_index"]}
{"id": "C04", "title": "hierarchy learning curve tests every ordered pair of subsets once and never on its own training data", "statement": "Hierarchy.split_predict evaluates the model, at each level, exactly once on every ordered pair of distinct subsets of that level, so the train set and the test set are always disjoint.", "quantifier": "every index split with any number of levels and any sizes", "why_tests_cant": "The number of ordered pairs grows with 4^level; a test that counts the evaluations of one small split does not show that no subset is ever tested against itself or skipped at a larger size.", "anchors": ["catlearn/cross_validation/hierarchy_cv.py: Hierarchy.split_predict"]}
{"id": "C05", "title": "fetching a subset from the hierarchy database returns exactly the requested rows", "statement": "Fetching a list of row ids from the Hierarchy database returns exactly those rows, each once, for any number of ids, in spite of the 999-parameter limit of sqlite that forces chunking.", "quantifier": "every duplicate-free list of ids, of any length", "why_tests_cant": "The chunk boundary only matters for more than 999 identifiers, and the off-by-one cases are multiples of the limit; tests use small tables that are fetched in one query.", "anchors": ["catlearn/cross_validation/hierarchy_cv.py: Hierarchy._compile_split", "catlearn/cross_validation/hierarchy_cv.py: Hierarchy._get_data"]}
{"id": "C06", "title": "genetic algorithm populations stay well formed for ever", "statement": "Starting from any well formed population, after any number of generations every individual is a 0/1 list of length d and the population has exactly population_size members.", "quantifier": "every history of generations, every random outcome, every fitness function, every operator choice", "why_tests_cant": "The population is rewritten by selection, crossover and mutation for an unbounded number of generations with random draws; only an invariant over all histories excludes a malformed individual.", "anchors": ["catlearn/ga/algorithm.py: GeneticAlgorithm.search", "catlearn/ga/algorithm.py: GeneticAlgorithm._new_generation", "catlearn/ga/mating.py", "catlearn/ga/mutate.py", "catlearn/ga/natural_selection.py"]}
{"id": "C07", "title": "elitism: the best fitness never decreases", "statement": "In a single-objective search the best fitness in the population after a generation is at least the best fitness before it.", "quantifier": "every population, every set of offspring and all fitness values", "why_tests_cant": "It compares consecutive generations for every fitness function and every outcome of the draws; a search that improves on the test data says nothing about offspring that are all worse.", "anchors": ["catlearn/ga/natural_selection.py: population_reduction", "catlearn/ga/natural_selection.py: remove_duplicates"]}
{"id": "C08", "title": "parent selection favours fitter individuals", "statement": "Roulette selection never gives an individual a smaller selection probability than a less fit one, and always returns a member of the current population.", "quantifier": "every fitness-ordered population and every random draw", "why_tests_cant": "It is a statement about the order of the whole probability table for every population size and every list of fitness values, including ties and negative values; sampling in a test only estimates a few entries.", "anchors": ["catlearn/ga/algorithm.py: GeneticAlgorithm._selection"]}
{"id": "C09", "title": "mutation operators change only what they advertise", "statement": "random_permutation flips exactly one gene; probability_remove only switches genes off and never returns an individual with no feature; probability_include only switches genes on; none changes the length.", "quantifier": "every individual, every sequence of random draws", "why_tests_cant": "Each operator draws random positions in a list of unbounded length; a test sees a few draws, and the forbidden outcome (an empty individual, a second flip) can be rare.", "anchors": ["catlearn/ga/mutate.py"]}
{"id": "C10", "title": "crossover only recombines the parents position by position", "statement": "Every gene of the cut_and_splice child equals the gene at the same position of one of the two parents, and the child has the parents' length.", "quantifier": "every pair of equal-length parents and every cut point / index choice", "why_tests_cant": "The cut position is random and the lengths are unbounded; a test on one pair of parents misses a boundary cut that drops or shifts a gene.", "anchors": ["catlearn/ga/mating.py: cut_and_splice"]}
{"id": "C11", "title": "parallel fitness evaluation equals serial evaluation under every schedule", "statement": "The fitness list produced with a pool of workers is equal to the serial one, whatever order the workers answer in.", "quantifier": "every population, every fitness function and every arrival order", "why_tests_cant": "The order in which workers answer is not under the control of a test; equality has to hold for every interleaving.", "anchors": ["catlearn/ga/algorithm.py: GeneticAlgorithm._parallel_iterator", "catlearn/ga/algorithm.py: GeneticAlgorithm._serial_iterator"]}
{"id": "C12", "title": "Pareto ranking respects dominance", "statement": "In multi-objective mode, an individual whose objectives strictly dominate another in every objective is never ranked worse than it, and each front consists of points not strictly dominated by the remaining ones.", "quantifier": "every matrix of fitness values, including failed individuals", "why_tests_cant": "Dominance has to be respected for all finite sets of points in any number of objectives, with ties; tests use one or two small fronts.", "anchors": ["catlearn/ga/algorithm.py: GeneticAlgorithm._pareto_transform", "catlearn/ga/algorithm.py: GeneticAlgorithm._locate_pareto"]}
{"id": "C13", "title": "stopping criterion fires exactly after the requested number of stalled generations", "statement": "Convergence.no_progress reports convergence at a generation exactly when the best fitness has failed to improve for more than `repeat` consecutive generations up to then.", "quantifier": "every sequence of best-fitness values and every repeat", "why_tests_cant": "The criterion depends on the whole history of best fitness values; the generation at which it fires is an off-by-one question that one history does not settle.", "anchors": ["catlearn/ga/convergence.py: Convergence.no_progress", "catlearn/ga/convergence.py: Convergence.stagnation"]}
{"id": "C14", "title": "standardize puts every column on one affine scale recoverable from the returned parameters", "statement": "standardize maps each column of train and test by the same map x -> (x - mean)/std with non-zero divisor; the training column then has mean 0 and variance 1 (or is all zero if it was constant); the original data is x*std + mean.", "quantifier": "every real matrix with at least one row and optional supplied mean/std", "why_tests_cant": "The identity has to hold for all real matrices, including columns that are constant, where the divisor changes; tests compare a mean and a variance of one random matrix.", "anchors": ["catlearn/preprocess/scaling.py: standardize"]}
{"id": "C15", "title": "normalize and min_max keep training data inside their ranges and preserve order", "statement": "normalize and min_max use one increasing affine map per column for train and test; min_max sends the training column into [0,1] attaining both ends when it is not constant.", "quantifier": "every real matrix", "why_tests_cant": "Order preservation and the attained bounds quantify over all real columns and all test rows outside the training range; tests check one random matrix.", "anchors": ["catlearn/preprocess/scaling.py: normalize", "catlearn/preprocess/scaling.py: min_max"]}
{"id": "C16", "title": "unit_length rows have norm one or zero", "statement": "unit_length returns rows of Euclidean norm 1, except all-zero rows which are returned unchanged.", "quantifier": "every real matrix", "why_tests_cant": "The exception for all-zero rows and the norm of every other row are statements about all real rows; tests compare shapes.", "anchors": ["catlearn/preprocess/scaling.py: unit_length"]}
{"id": "C17", "title": "target scaling is invertible", "statement": "For target_standardize, target_normalize and target_center the original targets are recovered from the returned data, scale and offset.", "quantifier": "every target list including constant ones", "why_tests_cant": "The inverse has to be exact for all targets; the constant target, for which the scale vanishes, is the corner that is missed.", "anchors": ["catlearn/preprocess/scaling.py: target_standardize", "catlearn/preprocess/scaling.py: target_normalize", "catlearn/preprocess/scaling.py: target_center"]}
{"id": "C18", "title": "cleaning keeps train, test, targets and labels aligned and removes all non-finite values", "statement": "clean_infinite returns training data without non-finite numbers, keeps exactly the rows with finite target and exactly the columns that are finite in the training data, and applies the same column selection to train, test and labels and the same row selection to train and targets.", "quantifier": "every matrix of finite/non-finite entries and every mask", "why_tests_cant": "Rows and columns are removed in stages and each stage has to be applied to train, test, targets and labels; the number of patterns of missing values is exponential in the size of the matrices.", "anchors": ["catlearn/preprocess/clean_data.py: clean_infinite"]}
{"id": "C19", "title": "clean_variance removes exactly the constant features", "statement": "clean_variance removes a column iff it is constant over the training data, applies the same selection to test and labels, and leaves no constant column; a second application changes nothing.", "quantifier": "every matrix", "why_tests_cant": "That exactly the constant columns go, and that a second application changes nothing, quantifies over all matrices; tests insert one constant column.", "anchors": ["catlearn/preprocess/clean_data.py: clean_variance"]}
{"id": "C20", "title": "outlier removal keeps features and targets paired and bounded", "statement": "remove_outliers keeps exactly the (row, target) pairs whose target is within con*MAD of the median on the requested side(s), never re-pairs a row with another target, and never removes the median value itself.", "quantifier": "every data set, con and constraint", "why_tests_cant": "The pairing can break only when both sides are cut one after the other with masks of different lengths; it has to hold for all distributions of the targets, including constant ones.", "anchors": ["catlearn/preprocess/clean_data.py: remove_outliers"]}
{"id": "C21", "title": "second-order feature names describe the generated columns", "statement": "For get_order_2, get_order_2ab and get_ablog the k-th label names the pair of features from which the k-th column was computed, and labels and columns have the same length; every unordered pair occurs exactly once.", "quantifier": "every number of features", "why_tests_cant": "Two separate loops enumerate the columns and the labels; that they agree at every position for every number of features is an induction, tests compare lengths.", "anchors": ["catlearn/preprocess/feature_engineering.py: get_order_2, get_labels_order_2, get_order_2ab, get_labels_order_2ab, get_ablog, get_labels_ablog"]}
{"id": "C22", "title": "ratio feature names describe the generated columns", "statement": "For get_div_order_2 the k-th label from get_labels_order_2(div=True) names the two features whose ratio is in column k.", "quantifier": "every number of features", "why_tests_cant": "Labels and ratios are enumerated by two different functions; agreement at every position for every number of features is not implied by equal lengths.", "anchors": ["catlearn/preprocess/feature_engineering.py: get_div_order_2, get_labels_order_2"]}
{"id": "C23", "title": "generated symbolic features are exactly the monomials of bounded order", "statement": "generate_positive_features(p, N) yields exactly the products of at most N symbols with repetition, each multiset once.", "quantifier": "every symbol list and every N", "why_tests_cant": "Completeness and absence of duplicates in a combinatorial enumeration are statements about all orders and all numbers of symbols; tests count the results for one small case.", "anchors": ["catlearn/preprocess/feature_engineering.py: generate_positive_features, generate_features"]}
{"id": "C24", "title": "greedy elimination accounts for every feature exactly once", "statement": "After GreedyElimination, the eliminated features together with the survivors are exactly the original features, each once; each round removes exactly step_size features of lowest score; between 1 and step_size features survive.", "quantifier": "every number of features, step size and scoring function", "why_tests_cant": "The number of rounds and the remainder in the last round depend on the number of features and the step; the accounting is an invariant of the loop for all score functions.", "anchors": ["catlearn/preprocess/greedy_elimination.py: GreedyElimination.greedy_elimination"]}
{"id": "C25", "title": "greedy elimination can be killed and resumed without changing its result", "statement": "If the run is killed after any completed save and restarted with the same arguments, the final list of (feature, score) is the same as that of the uninterrupted run.", "quantifier": "every crash point at a round boundary, any number of crashes, every deterministic scoring function", "why_tests_cant": "The run may be killed after any of an unbounded number of saves, and more than once; the test suite restarts, if at all, at one point.", "anchors": ["catlearn/preprocess/greedy_elimination.py: GreedyElimination._load_data", "catlearn/preprocess/greedy_elimination.py: GreedyElimination._write_data"]}
{"id": "C26", "title": "parallel feature elimination equals serial elimination under every schedule", "statement": "The score table (and any metadata reported per feature) of a parallel elimination run equals that of a serial run for every order of worker completion.", "quantifier": "every arrival order", "why_tests_cant": "Workers finish in any order, and the metadata are collected separately from the scores; a test observes one schedule of one machine.", "anchors": ["catlearn/preprocess/greedy_elimination.py: GreedyElimination._parallel_iterator", "catlearn/preprocess/importance_testing.py: ImportanceElimination"]}
{"id": "C27", "title": "feature screening orders features by the requested correlation and partitions them", "statement": "FeatureScreening.screen returns accepted and rejected lists that partition the features, with every accepted feature at least as strongly correlated (in the coefficient requested by the user) as every rejected one.", "quantifier": "every matrix, target and requested correlation name", "why_tests_cant": "The claim compares every accepted with every rejected feature for each coefficient, with ties and undefined correlations; tests check the number of accepted features for one matrix.", "anchors": ["catlearn/preprocess/feature_elimination.py: FeatureScreening.screen", "catlearn/preprocess/feature_elimination.py: FeatureScreening._get_correlation"]}
{"id": "C28", "title": "iterative screening partitions the features and reaches the requested size", "statement": "FeatureScreening.iterative_screen returns a permutation of all feature indices, its accepted part has the requested size, and the loop terminates.", "quantifier": "every number of features, step and size and every regression/correlation outcome", "why_tests_cant": "The loop ends only if every round accepts something; termination and the final size quantify over all matrices and all numbers of rounds.", "anchors": ["catlearn/preprocess/feature_elimination.py: FeatureScreening.iterative_screen", "catlearn/preprocess/feature_elimination.py: FeatureScreening._iterator"]}
{"id": "C29", "title": "feature perturbation touches only the tested feature", "statement": "feature_invariance, feature_randomize and feature_shuffle change only the tested column; shuffle keeps the multiset of its values; the caller's matrices are unchanged.", "quantifier": "every matrix, column and shuffle", "why_tests_cant": "The effect on the untouched columns and on the arrays of the caller has to be excluded for all matrices and all shuffles; tests look at the returned scores.", "anchors": ["catlearn/preprocess/importance_testing.py: feature_invariance, feature_randomize, feature_shuffle"]}
{"id": "C30", "title": "PCA returns the leading distinct components", "statement": "catlearn_pca(components=k) projects on the k leading distinct eigenvectors in order of decreasing eigenvalue.", "quantifier": "every number of features and components", "why_tests_cant": "The order of the eigenvectors returned by the linear algebra library is not specified; that k different leading ones are taken has to hold for every spectrum and every k.", "anchors": ["catlearn/preprocess/feature_extraction.py: catlearn_pca"]}
{"id": "C31", "title": "active-learning emulation never tests on training data and never repeats a point", "statement": "At every iteration of ActiveLearning.test_acquisition the training and candidate indices are disjoint and together are all rows, and each iteration moves exactly the acquired batch.", "quantifier": "every data set, batch size, number of iterations and every acquisition outcome", "why_tests_cant": "It is an invariant of a loop with an arbitrary acquisition function and batch size; a repeated or leaked point depends on the history.", "anchors": ["catlearn/active_learning/algorithm.py: ActiveLearning.test_acquisition"]}
{"id": "C32", "title": "members of an active-learning ensemble are independent", "statement": "Every member of ensemble_test starts from the initial subset given by the caller, and the caller's list is not changed by the run.", "quantifier": "every initial subset and any number of members", "why_tests_cant": "Sharing between members shows only in histories of several runs that start from the same list, and it depends on the aliasing of a list that is extended in place.", "anchors": ["catlearn/active_learning/algorithm.py: ActiveLearning.ensemble_test", "catlearn/active_learning/algorithm.py: ActiveLearning.test_acquisition"]}
{"id": "C33", "title": "ensemble results are reported in seed order under every schedule", "statement": "Entry k of the list returned by ensemble_test belongs to seed k, whatever order the workers finish in.", "quantifier": "every arrival order", "why_tests_cant": "Results are collected as the workers finish; a test sees the one order of completion that happens on its machine.", "anchors": ["catlearn/active_learning/algorithm.py: ActiveLearning.ensemble_test"]}
{"id": "C34", "title": "upper confidence bound rewards what the user asked for", "statement": "UCB scores increase with uncertainty, increase with the prediction when maximising and decrease with it when minimising.", "quantifier": "all predictions, uncertainties and kappa >= 0", "why_tests_cant": "Monotonicity in two arguments for every objective is a statement about all pairs of reals; tests check that numbers are returned.", "anchors": ["catlearn/active_learning/acquisition_functions.py: UCB"]}
{"id": "C35", "title": "expected improvement is a non-negative, monotone score symmetric between max and min", "statement": "EI is >= 0, strictly increasing in the prediction when maximising, non-decreasing in the uncertainty, bounded below by the plain improvement, and minimising is maximising the negated data.", "quantifier": "all predictions, best values and positive uncertainties", "why_tests_cant": "The bounds and the monotonicity involve Gaussian integrals for all real means and deviations, including the limit of small deviations; tests compare a few values with a formula of the same kind.", "anchors": ["catlearn/active_learning/acquisition_functions.py: EI"]}
{"id": "C36", "title": "probability of improvement is a probability that grows with the prediction", "statement": "PI lies in [0,1], is at least 1/2 exactly when the prediction is at least as good as the best, and is strictly monotone in the prediction.", "quantifier": "all predictions and best values and all positive uncertainties", "why_tests_cant": "Bounds and strict monotonicity hold or fail over all real predictions and deviations; tests check the range on one sample.", "anchors": ["catlearn/active_learning/acquisition_functions.py: PI"]}
{"id": "C37", "title": "classification-aware ranking is class aware", "statement": "acquisition_functions.classify ranks candidates against the best known target of their own class.", "quantifier": "every classifier and data set", "why_tests_cant": "The best known target has to be taken within the class of each candidate for every classifier and all interleavings of classes; tests use one classifier.", "anchors": ["catlearn/active_learning/acquisition_functions.py: classify, rank"]}
{"id": "C38", "title": "ridge regression solves the regularised normal equations and is the unique minimiser", "statement": "The coefficients returned by RR for omega2 > 0 satisfy (XᵀX + ω²)a = XᵀY + ω² p and uniquely minimise |Xa-Y|² + ω²|a-p|².", "quantifier": "every matrix, targets, prior p and omega2 > 0", "why_tests_cant": "Solving the equations and being the unique minimiser are statements about all matrices, including rank-deficient ones and ones with fewer rows than columns; tests check that the fit is close.", "anchors": ["catlearn/regression/ridge_regression.py: RidgeRegression.RR"]}
{"id": "C39", "title": "closed-form leave-one-out error equals the error of really leaving one out", "statement": "The LOOCV estimate computed from one SVD equals the mean squared prediction error of n refits each leaving one row out.", "quantifier": "every matrix, target and omega2 > 0", "why_tests_cant": "The closed form and the n refits are different computations whose equality is an identity over all matrices and regularisations; tests print the value without comparing it.", "anchors": ["catlearn/regression/ridge_regression.py: RidgeRegression._LOOCV"]}
{"id": "C40", "title": "a user supplied ridge regularisation is used", "statement": "get_coefficients returns the ridge solution for the regularisation given to the constructor/caller, for the data given to the call.", "quantifier": "every data set, regularisation and history of calls", "why_tests_cant": "The stored regularisation may be overwritten by an earlier search, so the claim is about histories of calls on one object; tests call it once.", "anchors": ["catlearn/regression/ridge_regression.py: RidgeRegression.get_coefficients, RR"]}
{"id": "C41", "title": "covariance matrices are symmetric, positive semidefinite and invertible with noise", "statement": "For gaussian, laplacian(1D), linear, constant and sums/products/scalings thereof, get_covariance on any point set is symmetric positive semidefinite, and positive definite once non-zero regularisation is added.", "quantifier": "every finite set of points, any dimension, every positive hyperparameter", "why_tests_cant": "Positive semidefiniteness is a statement about all quadratic forms on all finite sets of points and all combinations of kernels; a test that factorises one matrix does not see it.", "anchors": ["catlearn/regression/gpfunctions/covariance.py: get_covariance", "catlearn/regression/gpfunctions/kernels.py"]}
{"id": "C42", "title": "GP prediction interpolates and its uncertainty is consistent", "statement": "With invertible covariance K the GP mean at the training points without noise equals the targets, the predictive variance is >= 0, vanishes at noise-free training points and never exceeds the prior variance.", "quantifier": "every PSD kernel and data set", "why_tests_cant": "Interpolation and the bounds on the variance quantify over all data sets with an invertible covariance and all test points; tests compare errors with a threshold.", "anchors": ["catlearn/regression/gaussian_process.py: GaussianProcess.predict, _make_prediction", "catlearn/regression/gpfunctions/uncertainty.py"]}
{"id": "C43", "title": "GP updates leave no stale state", "statement": "After any sequence of update_data / update_gp calls, the stored inverse covariance is the inverse of the covariance of the stored training data with the stored kernel and regularisation, so predictions equal those of a freshly built model.", "quantifier": "every history of updates", "why_tests_cant": "A stale inverse appears only after particular sequences of updates; the claim is an invariant of all histories.", "anchors": ["catlearn/regression/gaussian_process.py: GaussianProcess.update_data, update_gp"]}
{"id": "C44", "title": "predict and predict_uncertainty agree", "statement": "predict_uncertainty on test points returns the uncertainties predict(uncertainty=True) returns for the same points.", "quantifier": "every model configuration incl. data scaling", "why_tests_cant": "Two methods compute the same quantity along different paths; agreement has to hold for all kernels, scalings, regularisations and test points.", "anchors": ["catlearn/regression/gaussian_process.py: GaussianProcess.predict, predict_uncertainty"]}
{"id": "C45", "title": "hyperparameter vector and kernel list are in bijection", "statement": "Writing a hyperparameter list back into the kernel list (list2kdict) and reading it (kdicts2list) gives the same list, for any combination of kernels.", "quantifier": "every kernel list and vector of matching length", "why_tests_cant": "The positions in the flat list depend on the kinds and the dimensions of all the kernels before; tests use one or two combinations.", "anchors": ["catlearn/regression/gpfunctions/kernel_setup.py: list2kdict, kdicts2list"]}
{"id": "C46", "title": "gradient-enhanced Gaussian covariance contains the true derivatives", "statement": "The blocks of the squared-exponential covariance with gradients are the first and second partial derivatives of the kernel function with respect to the point coordinates.", "quantifier": "all points, widths and coordinates", "why_tests_cant": "The blocks have to be derivatives at all points for all widths and dimensions; finite differences in a test are approximate and miss blocks that vanish at the chosen points.", "anchors": ["catlearn/regression/gpfunctions/kernels.py: gaussian_xx_gradients, gaussian_xxp_gradients"]}
{"id": "C47", "title": "hyperparameter derivatives are the true derivatives", "statement": "gaussian_dk_dwidth and laplacian_dk_dwidth are the partial derivatives of the kernel with respect to the width; the noise derivative used in the likelihood gradient is the derivative of the covariance with respect to the noise parameter.", "quantifier": "all points and widths", "why_tests_cant": "A derivative is an identity of functions over the reals; a finite difference at a few points is approximate and misses a wrong factor that is close to one.", "anchors": ["catlearn/regression/gpfunctions/kernels.py: gaussian_dk_dwidth, laplacian_dk_dwidth", "catlearn/regression/gpfunctions/log_marginal_likelihood.py: dK_dtheta_j"]}
{"id": "C48", "title": "error statistics are consistent", "statement": "get_error raises on unequal lengths; otherwise |signed mean| <= absolute mean <= rmse <= max, all are zero iff prediction equals target, swapping the arguments only flips the signed statistics, and reordering the pairs changes nothing.", "quantifier": "every pair of lists", "why_tests_cant": "The inequalities and the symmetry hold or fail over all pairs of lists, and equality holds only at special ones; tests compare numbers of one sample.", "anchors": ["catlearn/regression/cost_function.py: get_error"]}
{"id": "C49", "title": "the hyperparameter cost function measures the quality of a kernel", "statement": "The regression-loss objective used for hyperparameter optimisation distinguishes hyperparameters (is not identically zero).", "quantifier": "every invertible covariance", "why_tests_cant": "That an objective depends on the hyperparameters at all has to be judged over all kernels and data; an optimisation in a test ends also when the objective is constant.", "anchors": ["catlearn/regression/cost_function.py: _cost_function"]}
{"id": "C50", "title": "scaling the kernel back and forth loses nothing", "statement": "ScaleData.rescale_targets inverts the target scaling and kernel_scaling/rescale_hyperparameters is a round trip.", "quantifier": "all reals", "why_tests_cant": "The round trip composes two scalings which store state in between; it has to be exact for all data and all kernels, including constant targets.", "anchors": ["catlearn/regression/gpfunctions/default_scale.py", "catlearn/regression/gpfunctions/kernel_scaling.py"]}
{"id": "C51", "title": "saved kernels are read back in the same order", "statement": "Writing a Gaussian process model to hdf5 and reading it gives back the kernels in the same order.", "quantifier": "every number of kernels", "why_tests_cant": "The order is that of names in the file, so that it fails only beyond ten kernels; tests write one or two kernels.", "anchors": ["catlearn/regression/gpfunctions/io.py"]}
{"id": "C52", "title": "forces of the model potentials are the negative gradients of their energies", "statement": "For MultiModal, MullerBrown, GoldsteinPrice, Himmelblau, ModifiedHimmelblau and Rosenbrock calculators the returned forces are exactly minus the partial derivatives of the returned energy.", "quantifier": "every position", "why_tests_cant": "Energy and forces are separate formulas; that one is minus the gradient of the other is an identity over all real positions, and tests compare the results of relaxations.", "anchors": ["catlearn/optimize/functions_calc.py"]}
{"id": "C53", "title": "constrained coordinates never move", "statement": "unmask_geometry(apply_mask(x)) = x for consistent data, positions of coordinates fixed by the constraints are never altered by an optimisation step, and a coordinate fixed by any listed constraint is masked.", "quantifier": "every constraint list and geometry", "why_tests_cant": "All combinations of several constraints, directions and atoms have to be masked; tests use one constraint, and a coordinate that moves by mistake is not looked at.", "anchors": ["catlearn/optimize/constraints.py: create_mask, apply_mask, unmask_geometry"]}
{"id": "C54", "title": "ML minimisation respects its budget and its convergence criterion", "statement": "MLMin.run stops; when it reports convergence the last evaluated structure has maximum force below fmax; it makes at most max(1, steps) evaluations; its lists of geometries, energies and forces stay the same length.", "quantifier": "every energy surface and surrogate prediction, every steps/fmax", "why_tests_cant": "The number of passes, the energies and the forces come from an arbitrary calculator; the budget and the meaning of convergence are invariants over all trajectories.", "anchors": ["catlearn/optimize/mlmin.py: MLMin.run"]}
{"id": "C55", "title": "ML-NEB evaluates only interior images and respects its budget and convergence criterion", "statement": "MLNEB.run evaluates only interior images of the path, terminates within the step budget and reports convergence only if forces are below fmax and uncertainty is below the threshold with the full number of images.", "quantifier": "every trajectory, acquisition function and number of images", "why_tests_cant": "The path, the energies and the acquisition are arbitrary; that an end point is never evaluated and that the budget is kept are invariants over all trajectories, and tests follow one path.", "anchors": ["catlearn/optimize/mlneb.py: MLNEB.run"]}
{"id": "C56", "title": "the MLNEB acquisition strategies are different strategies", "statement": "acq_1 … acq_5 denote the distinct selection rules documented.", "quantifier": "every prediction/uncertainty profile", "why_tests_cant": "Two strategies may coincide on the path used in a test and differ on others, or the other way round; the rules have to be compared on all profiles of energy and uncertainty.", "anchors": ["catlearn/optimize/mlneb.py: MLNEB.run"]}
{"id": "C57", "title": "descriptor database behaves like a keyed table", "statement": "DescriptorDatabase: after any sequence of operations, a query for a descriptor of a stored id returns the last value written for it.", "quantifier": "every history of creations, fills, new columns and updates", "why_tests_cant": "The table is a map under all histories of creating columns, writing, querying and reopening; tests perform one history.", "anchors": ["catlearn/utilities/database_functions.py: DescriptorDatabase"]}
{"id": "C58", "title": "fingerprint database returns the requested matrix", "statement": "FingerprintDB.get_fingerprints(ids, params) returns one row per requested id, in the requested order, with one column per parameter.", "quantifier": "every database content and request", "why_tests_cant": "The order and the completeness of the rows depend on the order of the entries in the database and of the request; tests ask for all rows in the order of entry.", "anchors": ["catlearn/utilities/database_functions.py: FingerprintDB"]}
{"id": "C59", "title": "neighbour relation is symmetric", "statement": "catlearn_neighborlist lists j as a neighbour of i iff it lists i as a neighbour of j.", "quantifier": "every geometry and element mixture", "why_tests_cant": "The relation is computed for ordered pairs from radii and cells; symmetry has to hold for all geometries, and it fails only for rare ones at the cutoff.", "anchors": ["catlearn/utilities/neighborlist.py: catlearn_neighborlist"]}
{"id": "C60", "title": "connection matrices are symmetric, loop free and shells do not overlap", "statement": "connection_matrix is symmetric with zero diagonal; a pair of atoms is in at most one neighbour shell.", "quantifier": "every geometry", "why_tests_cant": "Overlap of shells occurs only for distances at the boundaries of shells; the claim quantifies over all geometries and radii.", "anchors": ["catlearn/featurize/neighbor_matrix.py: connection_matrix, _get_neighborlist"]}
{"id": "C61", "title": "feature rows correspond to structures in order, serial or parallel", "statement": "FeatureGenerator.return_vec returns row i for candidate i, each row the concatenation of the requested fingerprints, identical for serial and parallel evaluation, and return_names has one name per column.", "quantifier": "every list of candidates and fingerprint functions", "why_tests_cant": "The assignment of rows to structures must survive every order of completion of the workers and every list of fingerprint functions; tests compare shapes.", "anchors": ["catlearn/featurize/setup.py: FeatureGenerator.return_vec, return_names"]}
{"id": "C62", "title": "fingerprints do not depend on the order of atoms", "statement": "composition_vec, the Coulomb-matrix eigenspectrum, bag_elements, bag_edges, and the autocorrelation fingerprint are invariant under any renumbering of the atoms.", "quantifier": "every structure and permutation", "why_tests_cant": "There are n! renumberings for each structure, and sorting inside the fingerprints has to undo all of them, with ties; tests look at one numbering.", "anchors": ["catlearn/fingerprint/standard.py", "catlearn/fingerprint/molecule.py"]}
{"id": "C63", "title": "bag of bonds counts every bond once", "statement": "The entries of bag_edges sum to the number of bonds and each entry is the number of bonds between the two named elements.", "quantifier": "every connectivity", "why_tests_cant": "A bond counted twice or not at all depends on the order of the elements in the list of types; the sum rule is about all graphs.", "anchors": ["catlearn/fingerprint/standard.py: StandardFingerprintGenerator.bag_edges"]}
{"id": "C64", "title": "averages in fingerprints are averages", "statement": "distance_vec returns the mean distance of each element pair; element_parameter_vec returns the mean of the parameter over the elements.", "quantifier": "every structure", "why_tests_cant": "The divisor has to be the number of pairs actually found, for all structures and element lists; tests check for the absence of nan.", "anchors": ["catlearn/fingerprint/standard.py: distance_vec, element_parameter_vec"]}
{"id": "C65", "title": "slab and adsorbate atoms partition the structure", "statement": "slab_index and ads_index partition all atoms; chemisorbed atoms are adsorbate atoms, site and ligand atoms are slab atoms and ligands are not site atoms.", "quantifier": "every structure and connectivity", "why_tests_cant": "The sets are found by several independent rules; that they never overlap and leave out no atom is a statement about all structures with tags, and tests use a few adsorbates.", "anchors": ["catlearn/featurize/adsorbate_prep.py: slab_index, ads_index, info2primary_index"]}
{"id": "C66", "title": "termination detection reports the right layers under the right names", "statement": "termination_info stores bulk, termination and subsurface atom lists under the corresponding names.", "quantifier": "every structure", "why_tests_cant": "A wrong name for a list of atoms does not change the length of a fingerprint; the claim has to hold for all structures and all ways of detection.", "anchors": ["catlearn/featurize/adsorbate_prep.py: termination_info, detect_termination"]}
{"id": "C67", "title": "oxide detection depends only on the composition", "statement": "is_oxide gives the same answer for every ordering of the same composition.", "quantifier": "every composition and iteration order", "why_tests_cant": "The order of elements comes from a set, which differs between runs of Python; one run of a test sees one order.", "anchors": ["catlearn/featurize/slab_utilities.py: is_oxide"]}
{"id": "C68", "title": "learning curve uses the training sizes it reports", "statement": "LearningCurve.run trains iteration x on the documented number of rows, starting with min_data and growing by step.", "quantifier": "every data size, step and min_data", "why_tests_cant": "The sizes are recomputed from minimum, step and fold in each iteration; an off-by-one depends on the remainder and shows for particular sizes only.", "anchors": ["catlearn/learning_curve/learning_curve.py: LearningCurve.run, _single_test"]}
{"id": "C69", "title": "holdout split is a split", "statement": "holdout_set returns training and test sets that are disjoint, together contain all rows, have the requested sizes and keep each target with its row.", "quantifier": "every matrix, target, fraction and shuffle", "why_tests_cant": "The split depends on a random permutation and on rounding of the fraction; disjointness and completeness have to hold for all n! outcomes.", "anchors": ["catlearn/utilities/utilities.py: holdout_set"]}
{"id": "C70", "title": "unique test set and training set are disjoint", "statement": "Passing get_unique(...)[\"taken\"] to get_train gives a training set disjoint from the test set, with sizes min(size, available) and targets aligned.", "quantifier": "every list of structures, sizes and shuffles", "why_tests_cant": "Two functions draw from the same data in sequence, and the second relies on indices returned by the first; the claim is about all shuffles of both.", "anchors": ["catlearn/api/ase_data_setup.py: get_unique, get_train"]}
{"id": "C71", "title": "k-fold splitting leaves the caller's data alone", "statement": "k_fold does not modify the feature array it is given.", "quantifier": "every array, with and without targets, and every shuffle", "why_tests_cant": "Shuffling in place changes an array that the caller still holds; the return value, which tests look at, is correct all the same.", "anchors": ["catlearn/cross_validation/k_fold_cv.py: k_fold"]}
{"id": "C72", "title": "a generation of the genetic algorithm always completes", "statement": "In every population the search can reach, producing the next generation of offspring can end.", "quantifier": "every history of generations", "why_tests_cant": "A loop that draws until it finds two different parents never ends for a population of equal members; such a population is reached only after many generations.", "anchors": ["catlearn/ga/algorithm.py: GeneticAlgorithm._new_generation", "catlearn/ga/natural_selection.py: remove_duplicates"]}
{"id": "C73", "title": "the limit on the number of features is respected", "statement": "With dmax given, no individual of any generation has more than dmax features.", "quantifier": "every history of generations and all draws", "why_tests_cant": "The limit has to survive crossover, mutation and repair in all generations under all outcomes of the draws; tests run a few generations without looking.", "anchors": ["catlearn/ga/algorithm.py: GeneticAlgorithm._new_generation", "catlearn/ga/initialize.py: initialize_population"]}
{"id": "C74", "title": "multi-objective survival respects dominance across generations", "statement": "Natural selection never drops an individual while keeping one that it strictly dominates, also when the two come from different generations.", "quantifier": "every history of generations", "why_tests_cant": "Comparing individuals of different generations involves fitness values scaled in each generation; the claim is about all histories of fitness values.", "anchors": ["catlearn/ga/algorithm.py: GeneticAlgorithm.search, _pareto_transform", "catlearn/ga/natural_selection.py: population_reduction"]}
{"id": "C75", "title": "the fitness is cross validated on every row exactly once", "statement": "The cross validation inside the fitness evaluation uses every row exactly once for testing, and each split trains on exactly the other rows.", "quantifier": "every list of folds", "why_tests_cant": "The number of rows per fold depends on the remainder; a row that is never tested changes the fitness only slightly and no test notices.", "anchors": ["catlearn/ga/algorithm.py: _cross_validate"]}
{"id": "C76", "title": "mating combines two different members", "statement": "The two parents of a mating are different members of the population.", "quantifier": "every population and all draws", "why_tests_cant": "Whether two parents are different is decided by comparing arrays, which depends on the identity of views and on equal members of the population.", "anchors": ["catlearn/ga/algorithm.py: GeneticAlgorithm._new_generation"]}
{"id": "C77", "title": "no individual without features is evaluated", "statement": "Starting from individuals with at least one feature, every offspring has at least one feature.", "quantifier": "every population, operator and draw", "why_tests_cant": "An empty individual results only from rare combinations of crossover and mutation; it has to be excluded for all outcomes of the draws.", "anchors": ["catlearn/ga/mutate.py", "catlearn/ga/mating.py"]}
{"id": "C78", "title": "scaling leaves the caller's arrays alone", "statement": "The scaling functions return new arrays and do not modify the training and test arrays they are given.", "quantifier": "every array and every scaling function", "why_tests_cant": "Whether an array of the caller is changed depends on the path through the function and on aliasing; tests look at the returned arrays.", "anchors": ["catlearn/preprocess/scaling.py: standardize", "catlearn/preprocess/scaling.py: normalize", "catlearn/preprocess/scaling.py: min_max", "catlearn/preprocess/scaling.py: unit_length"]}
{"id": "C79", "title": "skewness cleaning keeps exactly the acceptable features", "statement": "clean_skewness keeps exactly the features whose skewness is below the threshold in absolute value, in order, and restricts train, test and labels to the same features.", "quantifier": "all matrices, labels and thresholds", "why_tests_cant": "That exactly the acceptable features are kept, in order and in all three places, quantifies over all matrices, including constant columns with undefined skewness.", "anchors": ["catlearn/preprocess/clean_data.py: clean_skewness"]}
{"id": "C80", "title": "masked features survive cleaning", "statement": "A feature listed in mask is not removed by clean_infinite, clean_variance or clean_skewness.", "quantifier": "all matrices and masks", "why_tests_cant": "The mask refers to positions that shift when earlier steps remove columns; it has to survive all matrices and all masks.", "anchors": ["catlearn/preprocess/clean_data.py: clean_infinite", "catlearn/preprocess/clean_data.py: clean_variance", "catlearn/preprocess/clean_data.py: clean_skewness"]}
{"id": "C81", "title": "the requested number of deviations decides what an outlier is", "statement": "remove_outliers keeps every target that lies within dev median absolute deviations of the median.", "quantifier": "all targets and all dev", "why_tests_cant": "The threshold multiplies a median of deviations; which targets are kept has to be right for all distributions and thresholds, and tests use the default.", "anchors": ["catlearn/preprocess/clean_data.py: remove_outliers"]}
{"id": "C82", "title": "root and logarithm features are always defined", "statement": "single_transform takes roots and logarithms only of numbers that are at least 1, whatever the sign of the data, and returns squares, roots and logarithms of all features in that order.", "quantifier": "every matrix with at least one row", "why_tests_cant": "The shift that makes the data positive depends on the sign and the size of the smallest value; a test on positive data does not take that path.", "anchors": ["catlearn/preprocess/feature_engineering.py: single_transform"]}
{"id": "C83", "title": "feature engineering leaves the caller's matrix alone", "statement": "The functions that derive new features do not modify the matrix they are given: after any sequence of calls on one matrix, the next call returns what it would have returned as the first.", "quantifier": "every matrix and every sequence of calls", "why_tests_cant": "A change of the argument in place is invisible in the returned value, which is what tests look at; it has to be excluded for all matrices.", "anchors": ["catlearn/preprocess/feature_engineering.py: get_ablog", "catlearn/preprocess/feature_engineering.py: single_transform", "catlearn/preprocess/feature_engineering.py: get_order_2"]}
{"id": "C84", "title": "exclude=True suppresses the constant feature", "statement": "With exclude=True, generate_positive_features does not return the constant feature 1.", "quantifier": "every symbol list and every order", "why_tests_cant": "The constant is one term of an enumeration whose length depends on the order; a test compares the number of terms for one order.", "anchors": ["catlearn/preprocess/feature_engineering.py: generate_positive_features"]}
{"id": "C85", "title": "generated fractions are exactly the reduced ones", "statement": "generate_features(p, max_num, max_den) returns every fraction in lowest terms with at most max_num factors above and max_den below exactly once.", "quantifier": "all numbers of features and orders", "why_tests_cant": "Completeness, lowest terms and absence of duplicates in an enumeration of fractions have to hold for all numbers of symbols and both bounds; tests count one small case.", "anchors": ["catlearn/preprocess/feature_engineering.py: generate_features"]}
{"id": "C86", "title": "metadata returned by the predict function is reported", "statement": "If the predict function given to greedy elimination returns additional values, the output rows contain the feature, its score and the fold-averaged additional values.", "quantifier": "every predict function returning a list", "why_tests_cant": "The statement is about every predict function that returns more than its score and every number of folds; the tests use functions that return only the score.", "anchors": ["catlearn/preprocess/greedy_elimination.py: GreedyElimination.greedy_elimination"]}
{"id": "C87", "title": "metadata reported with an eliminated feature belongs to that feature", "statement": "In importance elimination the additional values in an output row are the fold averages of the values obtained when the feature of that row was perturbed.", "quantifier": "every score order, every number of features and folds", "why_tests_cant": "Rows are sorted by score while the metadata are in the order of evaluation; a mismatch depends on the order of the scores, for all of which it must not occur.", "anchors": ["catlearn/preprocess/importance_testing.py: ImportanceElimination.importance_elimination"]}
{"id": "C88", "title": "a greedy elimination killed at any moment can be restarted", "statement": "A run with a save file that is killed at any moment, including while the file is being written, can be started again and gives the result of the uninterrupted run.", "quantifier": "every crash point", "why_tests_cant": "The moment of the kill includes the middle of a write, which leaves a truncated file; a test cannot enumerate all points of interruption of an unbounded run.", "anchors": ["catlearn/preprocess/greedy_elimination.py: GreedyElimination._write_data", "catlearn/preprocess/greedy_elimination.py: GreedyElimination._load_data"]}
{"id": "C89", "title": "greedy elimination evaluates the data it is given", "statement": "The result of greedy elimination is determined by the features and targets passed to it.", "quantifier": "every data set and state of the save file", "why_tests_cant": "A file left behind by an earlier search with other data changes the result; the claim is about all histories of files in the folder.", "anchors": ["catlearn/preprocess/greedy_elimination.py: GreedyElimination._load_data"]}
{"id": "C90", "title": "the response used by iterative screening has no component along accepted features", "statement": "In later rounds of iterative screening the remaining features are replaced by responses that are uncorrelated with (orthogonal to) every feature accepted so far.", "quantifier": "every number and scale of accepted features", "why_tests_cant": "Orthogonality to all accepted features has to hold after any number of rounds and for all matrices, also collinear ones; tests check the number of features.", "anchors": ["catlearn/preprocess/feature_elimination.py: FeatureScreening._get_response"]}
{"id": "C91", "title": "each round of iterative screening accepts the features ranked best by the regression", "statement": "Among the features passing the correlation screen, a round accepts those with the largest regression coefficients.", "quantifier": "every correlation order and every regression outcome", "why_tests_cant": "Which features are accepted depends on how the order by correlation and the order by coefficient interleave; the two agree on most test data.", "anchors": ["catlearn/preprocess/feature_elimination.py: FeatureScreening._iterator"]}
{"id": "C92", "title": "eliminate_features honours the requested size", "statement": "eliminate_features(size=k) returns matrices with k features.", "quantifier": "every size, with and without iteration", "why_tests_cant": "The requested size meets rounding, the minimum and the number of features; the claim is about all combinations, and tests use one.", "anchors": ["catlearn/preprocess/feature_elimination.py: FeatureScreening.eliminate_features"]}
{"id": "C93", "title": "training and test matrices are reduced to the same features", "statement": "After feature elimination column j of the reduced training matrix and column j of the reduced test matrix are the same original feature, and the retained features are the first size entries of the order.", "quantifier": "every order, size and pair of matrices", "why_tests_cant": "The two matrices are reduced in different statements; agreement of the columns has to hold for all orders, and tests compare shapes.", "anchors": ["catlearn/preprocess/feature_elimination.py: FeatureScreening._reduce_matrix", "catlearn/preprocess/feature_elimination.py: FeatureScreening.eliminate_features"]}
{"id": "C94", "title": "PCA variances are percentages", "statement": "The variances reported by catlearn_pca are non-negative, in decreasing order and sum to 100.", "quantifier": "every spectrum of singular values", "why_tests_cant": "Signs, order and sum depend on the spectrum, including vanishing eigenvalues and complex rounding; the claim is about all covariance matrices.", "anchors": ["catlearn/preprocess/feature_extraction.py: catlearn_pca"]}
{"id": "C95", "title": "a screening object can be reused", "statement": "Calling iterative_screen does not change the configuration of the object: a second call on the same data behaves as the first.", "quantifier": "every configuration", "why_tests_cant": "A call that changes the object shows only in the second call on the same object; tests call each object once.", "anchors": ["catlearn/preprocess/feature_elimination.py: FeatureScreening.iterative_screen"]}
{"id": "C96", "title": "optimistic ranking prefers what the user optimises for", "statement": "The optimistic score given by rank increases with the quality of the prediction under the chosen objective: larger predictions for max, smaller predictions for min.", "quantifier": "every prediction, uncertainty and reference", "why_tests_cant": "The sign of the score has to be right for all data and both objectives; a test that checks the shape of the ranking passes with the sign reversed.", "anchors": ["catlearn/active_learning/acquisition_functions.py: optimistic, rank"]}
{"id": "C97", "title": "the limit on the training set of an active-learning emulation is respected", "statement": "ActiveLearning.run with n_max set never trains on more than n_max points.", "quantifier": "every data set, batch size and limit", "why_tests_cant": "Whether the last batch goes over the limit depends on the remainder of limit and batch size; a limit that is a multiple of the batch size does not show it.", "anchors": ["catlearn/active_learning/algorithm.py: ActiveLearning"]}
{"id": "C98", "title": "ranking towards a numerical target works for every metric", "statement": "rank with a float objective returns one score per candidate for each requested metric.", "quantifier": "every target value and metric", "why_tests_cant": "Every metric has to be defined for a numerical objective, over all target values and predictions; tests use the objectives max and min.", "anchors": ["catlearn/active_learning/acquisition_functions.py: rank, UCB, EI, PI"]}
{"id": "C99", "title": "proximity scores prefer predictions nearer the target", "statement": "proximity, optimistic_proximity and probability_density give a higher score to a candidate predicted nearer the target (at equal uncertainty); proximity is 0 exactly at the target and negative elsewhere.", "quantifier": "every prediction, uncertainty and target", "why_tests_cant": "Monotonicity in the distance from the target quantifies over all pairs of candidates and all uncertainties; tests check that numbers are returned.", "anchors": ["catlearn/active_learning/acquisition_functions.py: proximity, optimistic_proximity, probability_density"]}
{"id": "C100", "title": "the cluster score penalises crowded clusters", "statement": "Of two candidates with the same prediction, cluster gives the lower score to the one in the cluster with more training points.", "quantifier": "every prediction and cluster occupancy", "why_tests_cant": "The penalty depends on the counts of all clusters and on the sign of the prediction, so that a negative prediction can reverse it; tests use one clustering.", "anchors": ["catlearn/active_learning/acquisition_functions.py: cluster"]}
{"id": "C101", "title": "classification-aware ranking keeps candidates and scores aligned", "statement": "classify returns one score per candidate in the order of test_atoms, whatever classes the classifier assigns.", "quantifier": "every classifier, every candidate list", "why_tests_cant": "The scores are computed class by class and have to be put back in the order of the candidates for all interleavings of classes; tests with classes in blocks pass anyway.", "anchors": ["catlearn/active_learning/acquisition_functions.py: classify"]}
{"id": "C102", "title": "the regularisation search never returns a worse value than its initial grid", "statement": "find_optimal_regularization returns a positive finite value whose error estimate is at most that of every value of the initial logarithmic grid, whatever the number of refinements. With cross validation by leaving one out, get_coefficients finds such a value and returns the coefficients that minimise the cost with it.", "quantifier": "every error estimate, grid size, number of refinements and singular values of the data", "why_tests_cant": "the error as function of the regularisation is arbitrary, and the list of tried values grows with every refinement; NaN enters through singular data or through the random samples of the bootstrap", "anchors": ["catlearn/regression/ridge_regression.py: RidgeRegression.find_optimal_regularization"]}
{"id": "C103", "title": "effective number of parameters", "statement": "The effective number of parameters returned by RR is the trace of the hat matrix X(XᵀX+ω²)⁻¹Xᵀ and lies between 0 and the number of features.", "quantifier": "every data set and regularisation", "why_tests_cant": "The trace formula and its bounds are identities over all matrices and regularisations; tests print the number.", "anchors": ["catlearn/regression/ridge_regression.py: RidgeRegression.RR"]}
{"id": "C104", "title": "the bootstrap error is an out-of-sample error", "statement": "The bootstrap error of a data point depends only on models fitted to samples that do not contain the point; the .632 estimate lies between training and out-of-sample error.", "quantifier": "every set of bootstrap samples", "why_tests_cant": "Which points are out of a sample is random, and a leak of a training point changes the estimate only slightly; the claim is about all samples.", "anchors": ["catlearn/regression/ridge_regression.py: RidgeRegression._bootstrap_ERR, bootstrap_calc"]}
{"id": "C105", "title": "gradient blocks of the linear and constant kernels are derivatives of the kernel", "statement": "With eval_gradients=True the blocks of the linear and constant covariance matrices are the partial derivatives of the kernel function.", "quantifier": "all points and constants", "why_tests_cant": "A derivative is an identity of functions over the reals for all points and dimensions; tests compare the shape of the blocks.", "anchors": ["catlearn/regression/gpfunctions/kernels.py: linear_kernel, constant_kernel"]}
{"id": "C106", "title": "the gradient covariance is a covariance", "statement": "The covariance matrix of values and gradients of a Gaussian-kernel process is symmetric positive semi-definite, and positive definite with positive regularisation, for any number of points.", "quantifier": "all data sets, widths, scalings and noise", "why_tests_cant": "Positive semidefiniteness is about all quadratic forms in values and gradients, for every number of points and dimensions; a factorisation of one matrix does not show it.", "anchors": ["catlearn/regression/gpfunctions/covariance.py: get_covariance", "catlearn/regression/gpfunctions/kernels.py: gaussian_kernel, gaussian_xx_gradients"]}
{"id": "C107", "title": "combining kernels when gradients are evaluated", "statement": "With eval_gradients=True the covariance of a sum (product) of kernels is the value and derivative blocks of the sum (product) of the kernel functions.", "quantifier": "all kernel lists", "why_tests_cant": "The product rule involves mixed terms of both kernels; it is an identity over the reals for all lists of kernels, and they vanish when one of the kernels is constant.", "anchors": ["catlearn/regression/gpfunctions/covariance.py: get_covariance"]}
{"id": "C108", "title": "log-scaled hyperparameters", "statement": "get_covariance with log_scale=True on the logarithms of the hyperparameters is get_covariance with log_scale=False on the hyperparameters.", "quantifier": "all kernels and data", "why_tests_cant": "The two calls must agree for all kernels and all positive hyperparameters; a hyperparameter that is forgotten shows only for the kernels that use it.", "anchors": ["catlearn/regression/gpfunctions/covariance.py: get_covariance"]}
{"id": "C109", "title": "the order of kernels is immaterial", "statement": "Permuting a kernel list in which every operation is the same does not change the covariance.", "quantifier": "all kernel lists", "why_tests_cant": "The result is accumulated in the order of the list with special treatment of the first kernel; invariance has to hold under all permutations of lists of any length.", "anchors": ["catlearn/regression/gpfunctions/covariance.py: get_covariance"]}
{"id": "C110", "title": "the quadratic kernel is the rational quadratic of its parameters", "statement": "The quadratic kernel of two points is (1 + Σ (x-y)²/(2·degree·slope²))^(-degree) for every slope format.", "quantifier": "all points, slopes and degrees", "why_tests_cant": "The formula depends on how the slope is given (number or list) and on the dimension; agreement is an identity over the reals, and tests check symmetry at most.", "anchors": ["catlearn/regression/gpfunctions/kernels.py: quadratic_kernel", "catlearn/regression/gpfunctions/kernel_setup.py: _quadratic_setup"]}
{"id": "C111", "title": "prepare_kernels makes kernels and bounds the optimiser can use", "statement": "prepare_kernels keeps the kernels in order with their features, scaling and operation, gives every width and slope list one entry per feature used (or one for a single dimension), only accepts positive Gaussian widths, and returns exactly one bound per hyperparameter plus one for the regularisation.", "quantifier": "all kernel lists", "why_tests_cant": "The number of bounds depends on the kinds and dimensions of all the kernels; a bound too many shifts those of all later kernels, and tests use one combination.", "anchors": ["catlearn/regression/gpfunctions/kernel_setup.py: prepare_kernels"]}
{"id": "C112", "title": "every implemented kernel can be used", "statement": "Every kernel with a function in kernels.py and a packing of hyperparameters can be used in a kernel list of a Gaussian process.", "quantifier": "every kernel type", "why_tests_cant": "A kernel that can never be used fails only when its name occurs in a list; the claim goes through all functions and all packings.", "anchors": ["catlearn/regression/gpfunctions/kernel_setup.py: prepare_kernels", "catlearn/regression/gpfunctions/kernels.py: AA_kernel, sqe_kernel, scaled_sqe_kernel"]}
{"id": "C113", "title": "regularised models can always be built", "statement": "GaussianProcess(...) with a regularisation different from zero can be built on any non-empty training set, even with coinciding points, from kernels with positive hyperparameters; without regularisation, coinciding training points make it raise.", "quantifier": "every data set and kernel list", "why_tests_cant": "Positive definiteness for coinciding points has to hold for every size and every data set; numerical tests hide it behind rounding.", "anchors": ["catlearn/regression/gaussian_process.py: GaussianProcess.__init__, update_data"]}
{"id": "C114", "title": "the log marginal likelihood is that of the Gaussian prior", "statement": "log_marginal_likelihood of a model is the logarithm of the density of the training targets under a normal distribution with the covariance of the training data; with scale_data of the standardised targets under the covariance of the standardised features, and not a number if the targets are constant.", "quantifier": "every data set and kernel list", "why_tests_cant": "The value is a determinant and a quadratic form; that it is the logarithm of the normal density is an identity over the reals for every size.", "anchors": ["catlearn/regression/gpfunctions/log_marginal_likelihood.py: log_marginal_likelihood", "catlearn/regression/gaussian_process.py: GaussianProcess._update_lml"]}
{"id": "C115", "title": "more training data never increases the predicted uncertainty", "statement": "Of two models with the same kernels and regularisation, one of which has additional training data, that one predicts uncertainties that are never larger.", "quantifier": "every data set and test point", "why_tests_cant": "It compares two models for all data sets and all additional points; a test that adds a point and compares once does not show monotonicity.", "anchors": ["catlearn/regression/gaussian_process.py: GaussianProcess.predict", "catlearn/regression/gpfunctions/uncertainty.py"]}
{"id": "C116", "title": "the order of the training data is immaterial", "statement": "Models built from the same training pairs in another order make the same predictions and uncertainties, with and without data scaling.", "quantifier": "every permutation of every training set", "why_tests_cant": "There are n! orders of the training data, and the scaling recomputes its parameters in each; tests use one order.", "anchors": ["catlearn/regression/gaussian_process.py: GaussianProcess"]}
{"id": "C117", "title": "the prediction is the best linear predictor", "statement": "When values and targets have the covariances the kernels describe, the predicted variance is the mean squared error of the prediction and no other linear combination of the targets has a smaller one.", "quantifier": "every model, test point and set of weights", "why_tests_cant": "It compares the prediction with all linear combinations of the targets under all distributions with the given covariances; a test has one sample.", "anchors": ["catlearn/regression/gaussian_process.py: GaussianProcess.predict, _make_prediction"]}
{"id": "C119", "title": "uncertainty_with_reg includes the noise", "statement": "uncertainty_with_reg is the standard deviation sqrt(variance + regularization²) of a noisy observation.", "quantifier": "every model and test point", "why_tests_cant": "The formula has to hold for all variances and regularisations; with a small regularisation variance and standard deviation are not told apart in a test.", "anchors": ["catlearn/regression/gaussian_process.py: GaussianProcess.predict, predict_uncertainty"]}
{"id": "C120", "title": "training predictions are predictions", "statement": "train_prediction returned with get_training_error=True is what predict returns at the training points.", "quantifier": "every model", "why_tests_cant": "Training predictions are computed along another path than test predictions; agreement has to hold for all kernel lists, and tests compare errors.", "anchors": ["catlearn/regression/gaussian_process.py: GaussianProcess.predict"]}
{"id": "C121", "title": "uncertainties can be had from every model", "statement": "predict(uncertainty=True) returns uncertainties, and the same predictions, whenever predict works.", "quantifier": "every model", "why_tests_cant": "Each configuration of the constructor takes another path; a configuration in which uncertainties fail is missed unless a test happens to use it.", "anchors": ["catlearn/regression/gaussian_process.py: GaussianProcess.predict"]}
{"id": "C124", "title": "the likelihood gradient given to the optimiser is the gradient of the loss", "statement": "With eval_jac=True the second result of log_marginal_likelihood is the gradient of the first with respect to theta.", "quantifier": "every data set, kernel list and hyperparameter vector", "why_tests_cant": "The gradient is computed by a formula for traces with a term for every hyperparameter; that all of them are derivatives of the first result is an identity over the reals.", "anchors": ["catlearn/regression/gpfunctions/log_marginal_likelihood.py: log_marginal_likelihood, dK_dtheta_j"]}
{"id": "C126", "title": "a model read from an hdf5 file is the model that was written", "statement": "write(model, ext=hdf5) followed by read gives a model with the same predictions and uncertainties.", "quantifier": "every model", "why_tests_cant": "What is lost in a file depends on the configuration (scaling, bounds, gradients) and on earlier updates; tests write one model.", "anchors": ["catlearn/regression/gpfunctions/io.py: write, read"]}
{"id": "C127", "title": "MLMin reports missing convergence only when the criterion is missed", "statement": "When MLMin.run ends with the message \"Not converged. Maximum number of iterations reached\", the last evaluated structure has a force of at least fmax.", "quantifier": "every energy surface, surrogate and steps", "why_tests_cant": "A test has one surface and one budget; the order of the budget test and the convergence test only shows when convergence happens in the last allowed step.", "anchors": ["catlearn/optimize/mlmin.py: MLMin.run"]}
{"id": "C128", "title": "MLMin.list_atoms shows the evaluated geometries", "statement": "Entry i of MLMin.list_atoms is an Atoms object with the geometry list_train[i].", "quantifier": "every run", "why_tests_cant": "Aliasing of one Atoms object is only visible after several evaluations and not in the written file.", "anchors": ["catlearn/optimize/mlmin.py: MLMin.run, MLMin.__init__"]}
{"id": "C129", "title": "the documented MLMin kernels run", "statement": "MLMin.run does not fail with an undefined name for any documented kernel (SQE, SQE_opt, ARD_SQE).", "quantifier": "every starting data set", "why_tests_cant": "Tests use one kernel and one starting structure; the failure needs another name and more structures.", "anchors": ["catlearn/optimize/mlmin.py: MLMin.run"]}
{"id": "C130", "title": "after MLMin converges the structure of the caller is the converged one", "statement": "When MLMin.run reports convergence the Atoms object passed to MLMin has the geometry that satisfies the criterion.", "quantifier": "every initial structure and list of previous calculations", "why_tests_cant": "It only shows when previous calculations already satisfy the criterion, so that no structure is evaluated; a test that starts without a history does not take that path.", "anchors": ["catlearn/optimize/mlmin.py: MLMin.run"]}
{"id": "C131", "title": "MLNEB convergence is tested at the top of the path", "statement": "When MLNEB.run reports convergence, the structure whose forces passed the test is the image with the highest predicted energy (plus uncertainty).", "quantifier": "every path profile and acquisition", "why_tests_cant": "Which image is evaluated last depends on the acquisition function and on the predicted path; tests run one path with the default acquisition.", "anchors": ["catlearn/optimize/mlneb.py: MLNEB.run"]}
{"id": "C132", "title": "MLNEB records complete data for each evaluation", "statement": "list_train, list_targets, list_gradients and list_max_abs_forces have one entry per evaluated structure, the values of the real calculator at the recorded geometry.", "quantifier": "every run", "why_tests_cant": "The lists are extended in different places of the loop; their alignment is an invariant over any number of passes, and tests look at the final energy.", "anchors": ["catlearn/optimize/mlneb.py: MLNEB.run, eval_and_append"]}
{"id": "C133", "title": "create_column adds the named column", "statement": "DescriptorDatabase.create_column(name) adds exactly the named column, empty, and keeps every stored value.", "quantifier": "every table and every name", "why_tests_cant": "The name goes into a statement of the database as text; what happens depends on all names, and on columns which exist already, and tests use one plain name.", "anchors": ["catlearn/utilities/database_functions.py: DescriptorDatabase.create_column"]}
{"id": "C134", "title": "stored fingerprints are never changed", "statement": "A value stored for a pair of image and parameter is kept by every later image_entry, parameter_entry and fingerprint_entry; the first entry for a pair stores its value and touches no other pair.", "quantifier": "every history of entries", "why_tests_cant": "A stored value could be replaced by any later entry, so the claim is an invariant over all histories; tests enter each value once.", "anchors": ["catlearn/utilities/database_functions.py: FingerprintDB"]}
{"id": "C135", "title": "the identifier returned by image_entry identifies the image", "statement": "The identifier that FingerprintDB.image_entry returns can be passed to fingerprint_entry to enter values for that image.", "quantifier": "every database and ase-db row", "why_tests_cant": "The identifier counts rows, while the database numbers images; the two differ after particular histories and for particular rows only.", "anchors": ["catlearn/utilities/database_functions.py: FingerprintDB.image_entry, FingerprintDB.fingerprint_entry"]}
{"id": "C136", "title": "neighbour shells are numbered by distance", "statement": "The entry of catlearn_neighborlist for two atoms is the number of the first requested shell that contains their distance, 0 if none does.", "quantifier": "every geometry, element mixture, buffer and number of shells", "why_tests_cant": "The shell is found by a sequence of comparisons with growing radii; the first one that contains a distance has to be reported for all geometries.", "anchors": ["catlearn/utilities/neighborlist.py: catlearn_neighborlist, _neighbor_iterator"]}
{"id": "C137", "title": "max_neighbor=full ends and connects all pairs", "statement": "catlearn_neighborlist(max_neighbor=\"full\") ends, and every pair of different atoms has a shell.", "quantifier": "every geometry and element mixture", "why_tests_cant": "Termination of the loop over shells is not something a test can establish; it needs a bound for all geometries.", "anchors": ["catlearn/utilities/neighborlist.py: catlearn_neighborlist"]}
{"id": "C138", "title": "connection_dict lists the neighbours of every atom", "statement": "connection_dict(neighbor_number=k) has an entry for each atom: its neighbours in shell k, padded with -1 to equal lengths.", "quantifier": "every geometry and shell", "why_tests_cant": "Lists of different lengths are padded, and an atom without neighbours must still have an entry; the claim is about all geometries and shells.", "anchors": ["catlearn/featurize/neighbor_matrix.py: connection_dict"]}
{"id": "C139", "title": "bond count features count bonds", "statement": "Level two of neighbor_features holds, for each pair of elements, the number of bonds between atoms of these elements.", "quantifier": "every connection matrix and composition", "why_tests_cant": "A bond between equal elements or between elements in another order is easily counted twice; the count must be right for all graphs, and tests compare lengths.", "anchors": ["catlearn/featurize/neighbor_matrix.py: _get_features, _heteroatomic_matrix"]}
{"id": "C140", "title": "generalised coordination numbers", "statement": "The generalised coordination number of an atom is the sum of the coordination numbers of its neighbours over 12.", "quantifier": "every connection matrix", "why_tests_cant": "The sum goes over neighbours of neighbours and depends on how the atom itself is treated; it is an identity over all graphs.", "anchors": ["catlearn/featurize/neighbor_matrix.py: _generalized_matrix"]}
{"id": "C141", "title": "ase_connectivity returns the bonds of a periodic structure", "statement": "ase_connectivity returns a symmetric matrix that counts, for each pair of atoms, the periodic images nearer than the sum of their cutoffs, whether or not the atoms object carries a neighbour list and whether or not cutoffs are given; wrapping atoms into the cell changes nothing, and larger cutoffs never remove a connection.", "quantifier": "every cell, set of positions, periodicity, choice of wrapping and list of cutoffs", "why_tests_cant": "a test connects one structure that has no neighbour list, in one wrapping and with one list of cutoffs", "anchors": ["catlearn/utilities/neighborlist.py: ase_connectivity"]}
{"id": "C142", "title": "normalize_features finds the elements and sizes, and later calls keep the columns", "statement": "After normalize_features(train, test) (or after the first return_vec call when atom_types/atom_len are unset) the generator holds the sorted list of the distinct atomic numbers found in all candidates, without repetitions, and the largest number of atoms. Once they are set, later return_vec calls leave them as they are, so that a feature matrix made for new candidates has the same columns as the training matrix.", "quantifier": "Any lists of candidates, any featurizers.", "why_tests_cant": "Tests fingerprint one list with one call; they do not compare the columns of successive calls for arbitrary lists.", "anchors": ["catlearn/featurize/setup.py: FeatureGenerator.normalize_features, _get_atom_types, _get_atom_length, return_vec"]}
{"id": "C143", "title": "bag_element_cn counts every atom once", "statement": "bag_element_cn(atoms) returns, for each element of atom_types and each coordination number from cn_min to cn_max, the number of atoms of this element with this coordination number; the entries sum to the number of atoms, and a coordination number out of bounds gives NaN with a warning.", "quantifier": "every structure, connectivity, list of element types and bounds", "why_tests_cant": "The counting identity is about all structures, and coordination numbers outside of the bounds have to be refused; tests look at shapes only.", "anchors": ["catlearn/fingerprint/standard.py: StandardFingerprintGenerator.bag_element_cn"]}
{"id": "C144", "title": "bag_edges_cn counts every bond once, by element and coordination number", "statement": "bag_edges_cn(atoms) returns the bonds by the elements and coordination numbers of both ends; the entries sum to the number of bonds, each entry counting the bonds between its two kinds of nodes.", "quantifier": "every structure, connectivity, list of element types and bounds", "why_tests_cant": "The counting identity is over all structures and all orders of atom_types; tests look at shapes only.", "anchors": ["catlearn/fingerprint/standard.py: StandardFingerprintGenerator.bag_edges_cn"]}
{"id": "C145", "title": "the detected adsorbate has the composition of the species", "statement": "When the chemical formula of the adsorbate is known, the atoms returned by detect_adsorbate (formula2ads_index, connectivity2ads_index, last2ads_index, tags2ads_index) are distinct atoms of the structure with exactly this composition, or the call fails.", "quantifier": "every structure, connectivity, tags and formula", "why_tests_cant": "A test has a handful of structures; the claim is about every structure, also those where an element of the adsorbate occurs in the slab.", "anchors": ["catlearn/featurize/adsorbate_prep.py: detect_adsorbate, formula2ads_index, connectivity2ads_index, last2ads_index, tags2ads_index"]}
{"id": "C146", "title": "detect_termination finds the layers of the slab", "statement": "detect_termination returns the bulk, termination and subsurface atoms: termination and bulk atoms partition the slab (adsorbate atoms are in neither), subsurface atoms are bulk atoms next to the termination.", "quantifier": "every structure with tags, a constraint, a layer key, or only a connectivity", "why_tests_cant": "There are four ways of detection, each with its own rules; the partition has to hold for all structures, and tests use one kind of slab.", "anchors": ["catlearn/featurize/adsorbate_prep.py: detect_termination, tags_termination, constraints_termination, layers_termination, connectivity_termination"]}
{"id": "C147", "title": "attach_cations partitions the atoms", "statement": "attach_cations attaches the lists of cations and anions, which partition the atoms by element; it raises ValueError when the anion does not occur.", "quantifier": "every structure and anion", "why_tests_cant": "A partition of all atoms is claimed for every structure and every anion, also one that does not occur; tests use one oxide.", "anchors": ["catlearn/featurize/adsorbate_prep.py: attach_cations"]}
{"id": "C148", "title": "The outer electron count of an element reads its whole electron configuration", "statement": "For an element whose configuration is written the way Mendeleev writes it (\"[core] \" followed by shells like \"3d6 4s2\"), n_outer returns the number of electrons in each of the s, p, d and f subshells and the sum of all of them.", "quantifier": "every sequence of shells with occupation between 1 and 99, written with or without the occupation digit 1", "why_tests_cant": "The database holds about a hundred configurations; a test checks a handful of them. Whether the reader is right for every shell string, with shells in every order and repeated, is a statement about all strings.", "anchors": ["catlearn/featurize/periodic_table_data.py: n_outer"]}
{"id": "C149", "title": "The columns of list_mendeleev_params are the columns make_labels names", "statement": "For any parameter list, every row returned by list_mendeleev_params has as many entries as make_labels (with the default of no suffixed labels) gives names, in the same order, with special parameters expanded in place and unknown values turned into nan.", "quantifier": "every list of atomic numbers, every parameter list, every content of the element table", "why_tests_cant": "The parameter lists used in tests contain each special parameter at most once and in one order; the alignment of names and columns must hold for any list the user passes.", "anchors": ["catlearn/featurize/periodic_table_data.py: list_mendeleev_params, make_labels, get_mendeleev_params"]}
{"id": "C150", "title": "A chemical formula is read with the right composition weights", "statement": "stat_mendeleev_params reads a formula such as Fe2O3 into its elements and their coefficients (1 where none is written), each coefficient attached to the element it follows, before averaging the element data with those weights.", "quantifier": "every formula built from known element symbols with or without coefficients, integer or decimal, of any length", "why_tests_cant": "A test reads one or two formulas and checks shapes; where the coefficient of the n-th symbol ends up depends on which of the other symbols carry one, so only a proof over all formulas settles it.", "anchors": ["catlearn/featurize/periodic_table_data.py: stat_mendeleev_params"]}
{"id": "C151", "title": "formal charges of a compound add up to zero", "statement": "formal_charges distributes the charge of the ions over their bonds so that the charges of all atoms of a structure add up to zero.", "quantifier": "every structure: any number of atoms, any atomic numbers, any connectivity matrix, any ion and any ionic charge", "why_tests_cant": "The test suite only checks that the function returns; neutrality depends on how many bonds each ion has, and the cases with single bonds or isolated ions are not in the test data.", "anchors": ["catlearn/utilities/utilities.py: formal_charges"]}
{"id": "C152", "title": "formal charges have the right sign and belong to the right atoms", "statement": "With a negative ion, atoms of other elements get nonnegative charges, zero exactly when bound to no ion; ions bound to no other ion keep exactly their formal charge; reordering the atoms reorders the charges.", "quantifier": "every structure with a nonnegative connectivity matrix and every reordering of its atoms", "why_tests_cant": "The result is computed in a loop that updates a shared array while recomputing everything; independence of atom order is a statement about all permutations.", "anchors": ["catlearn/utilities/utilities.py: formal_charges"]}
{"id": "C153", "title": "geometry_hash does not depend on the order of the atoms", "statement": "geometry_hash returns a hash for every structure, the same one for a structure whose atoms are listed in another order, and does not touch the structure.", "quantifier": "every structure and every reordering of its atoms, Python 2 and Python 3", "why_tests_cant": "Order independence quantifies over all permutations of all structures; ties in the sort key are measure zero and never hit by sampled structures.", "anchors": ["catlearn/utilities/utilities.py: geometry_hash"]}
{"id": "C154", "title": "geometry_hash distinguishes different geometries", "statement": "Structures that differ in the position of an atom by more than the rounding get different strings to hash.", "quantifier": "every pair of structures, of any size", "why_tests_cant": "The loss of information only starts above a size threshold of the array printing, larger than any structure in the test data.", "anchors": ["catlearn/utilities/utilities.py: geometry_hash"]}
{"id": "C155", "title": "penalties switch on exactly at the critical distance", "statement": "penalty_close is positive exactly for test points nearer than the critical distance to a training point, largest exactly for duplicates, and never rises with the distance; penalty_far is positive exactly for points with no training point within the critical distance, and never falls with the distance. Without training data both raise an error.", "quantifier": "every training and test set in any dimension, every positive constant and critical distance", "why_tests_cant": "The claim is an equivalence over all point sets and distances, with its boundary at equality; tests sample some points.", "anchors": ["catlearn/utilities/penalty_functions.py: penalty_close, penalty_far"]}
{"id": "C156", "title": "a trajectory is converted to training data image by image", "statement": "ase_to_catlearn returns one row of positions, one energy and one row of negative forces for each image, in order, with the first and the last image of the trajectory, and refuses images with different numbers of atoms.", "quantifier": "every list of images, of any length and any numbers of atoms", "why_tests_cant": "The list is flattened and reshaped: whether rows still belong to images depends on all the atom counts; tests use trajectories of equal images and do not look at the returned last image.", "anchors": ["catlearn/optimize/io.py: ase_to_catlearn"]}
{"id": "C157", "title": "flat arrays and positions convert back and forth", "statement": "array_to_ase of the flattened positions returns the positions, flattening its result returns the array, and arrays of any other length are refused; likewise array_to_atoms.", "quantifier": "every list of positions and every flat array, of any length", "why_tests_cant": "A round trip over all sizes and the refusal of every other length are universal statements.", "anchors": ["catlearn/optimize/io.py: array_to_ase, array_to_atoms"]}
{"id": "C158", "title": "Statistics over a group of atoms", "statement": "For a structure with a nonempty group of atoms (site, chemisorbed atoms, surface ligands, cations, bulk, termination) with complete elemental data, the fingerprints mean_*, sum_*, min_*, max_* and median_* return one number per label, namely that statistic of the values of the atoms with known data; minimum ≤ mean, median ≤ maximum; the order of the atoms does not matter.", "quantifier": "all groups of atoms, all parameter lists, all elemental tables with missing values", "why_tests_cant": "Unit tests compare one structure with a stored vector; they cannot cover all combinations of group sizes, missing values and parameter lists.", "anchors": ["catlearn/fingerprint/adsorbate.py: mean_site, max_site, min_site, median_site, sum_site, mean_chemisorbed_atoms, mean_surf_ligands, term, bulk"]}
{"id": "C159", "title": "Names of the bulk fingerprints", "statement": "bulk_summation, bulk_average and bulk_std return as many numbers as names, the names are distinct, every column has data, and the numbers of bulk_std are the population standard deviations of the known values over the atoms.", "quantifier": "all structures and all extra parameters", "why_tests_cant": "Names and numbers are produced by different branches for each option; the tests run the default parameters only.", "anchors": ["catlearn/fingerprint/bulk.py: bulk_summation, bulk_average, bulk_std"]}
{"id": "C160", "title": "Bulk fingerprints and supercells", "statement": "Repeating the unit cell k times multiplies bulk_summation by k and leaves bulk_average and bulk_std (and the means, medians, minima, maxima over the atoms) unchanged.", "quantifier": "all structures, all k ≥ 1, all parameters", "why_tests_cant": "It relates infinitely many pairs of structures, of which one is a repetition of the other; tests look at one cell at a time.", "anchors": ["catlearn/fingerprint/bulk.py: bulk_summation, bulk_average, bulk_std"]}
{"id": "C161", "title": "Strain", "statement": "strain returns the relative difference of the mean radius of the site and of the termination to the mean radius of the bulk: zero iff equal, positive iff larger, above -1, independent of the unit of length.", "quantifier": "all compositions and tables of positive radii", "why_tests_cant": "Sign, zero and invariance are statements about all tables of radii and all groups of atoms; tests check that a number is returned.", "anchors": ["catlearn/fingerprint/adsorbate.py: strain", "catlearn/featurize/periodic_table_data.py: get_radius"]}
{"id": "C162", "title": "Convoluted fingerprints", "statement": "conv_bulk and conv_term return, per parameter, the root of the sum of squares over the group and the root of the sum of the products over the bonds of the group, per atom; they do not depend on the order of the atoms.", "quantifier": "all structures, groups and connectivity matrices", "why_tests_cant": "The double loop uses positions within the group to index arrays of all atoms; the tests use structures in which the group comes first, where the two coincide.", "anchors": ["catlearn/fingerprint/convoluted.py: conv_bulk, conv_term"]}
{"id": "C163", "title": "Bags of bonds of adsorbates", "statement": "bag_edges_ads counts every bond within the adsorbate once, in the cell of the two elements; bag_edges_chemi every bond between a chemisorbed atom and the site; bag_edges_all every bond touching the adsorbate.", "quantifier": "all structures, connectivity matrices and lists of elements", "why_tests_cant": "Completeness of the count, with each bond once, has to hold for every graph and every order of the elements; the tests compare lengths.", "anchors": ["catlearn/fingerprint/adsorbate.py: bag_edges_ads, bag_edges_chemi, bag_edges_all"]}
{"id": "C164", "title": "Bag of coordination numbers", "statement": "bag_cn counts, per coordination number, the site atoms with that number of slab neighbours; every site atom is counted.", "quantifier": "all structures and connectivity matrices", "why_tests_cant": "Coordination numbers outside the tested range do not occur in the test data.", "anchors": ["catlearn/fingerprint/adsorbate.py: bag_cn"]}
{"id": "C165", "title": "Generalized coordination numbers", "statement": "generalized_cn returns the mean coordination number and the generalized coordination number of the site and of the chemisorbed atoms.", "quantifier": "all structures and connectivity matrices, all site sizes", "why_tests_cant": "Wrong indexing that happens to agree for one ordering of the atoms is not seen by a test.", "anchors": ["catlearn/fingerprint/adsorbate.py: generalized_cn"]}
{"id": "C166", "title": "Counting adsorbate atoms", "statement": "bag_atoms_ads counts the adsorbate atoms per element (total = number of adsorbate atoms, ValueError iff an element is missing from atom_types); count_chemisorbed_fragment counts the bonds of the chemisorbed atoms per element, the bonds to the site and the site atoms; db_size reports the stored number of layers, the number of surface atoms and the coverage, the stored number of adsorbates per surface atom.", "quantifier": "all structures, element lists and connectivity matrices", "why_tests_cant": "Counts and refusals are claimed for all graphs and all lists of elements; the tests use adsorbates whose elements are all in the list.", "anchors": ["catlearn/fingerprint/adsorbate.py: bag_atoms_ads, count_chemisorbed_fragment, db_size"]}
{"id": "C167", "title": "Electronegativity differences", "statement": "en_difference_* is, per electronegativity scale, the sum over the bonds of the squared difference: each bond once, not negative, zero iff bonded atoms have equal electronegativity, independent of the order of the atoms, and undefined only if a bonded atom has no value.", "quantifier": "all structures, connectivity matrices and tables", "why_tests_cant": "Each bond has to count once and missing values have to be treated alike in all graphs; tests check that numbers are returned.", "anchors": ["catlearn/fingerprint/adsorbate.py: en_difference_ads, en_difference_chemi, en_difference_active"]}
{"id": "C168", "title": "Formal charges in chalcogenides", "statement": "formal_charges gives every slab anion its charge and distributes the opposite charge over its neighbours, so the structure is neutral; the excess of an atom is the distance to the nearest oxidation state; the excess of slab and site is bounded by the transferred charge, which vanishes iff every slab atom has an oxidation state of its element.", "quantifier": "all structures, connectivity matrices, ion charges and tables of oxidation states", "why_tests_cant": "Charge balance is an identity over all graphs and all tables of charges; tests compare the length of the fingerprint.", "anchors": ["catlearn/fingerprint/chalcogenide.py: formal_charges"]}
{"id": "C169", "title": "nearest-neighbour matrix of particles", "statement": "nearestneighbour_vec returns, for every ordered pair (A, B) of atom_types in the order of its names, the mean number of B atoms within the first-neighbour distance of an A atom; elements outside atom_types are refused; the numbering of the atoms does not matter; a generator can describe structures one after the other.", "quantifier": "every structure, distance matrix, cutoff and list of elements", "why_tests_cant": "the counting is over all graphs and element lists; tests compare lengths for one particle", "anchors": ["catlearn/fingerprint/particle.py: ParticleFingerprintGenerator.nearestneighbour_vec"]}
{"id": "C170", "title": "bond counts of particles", "statement": "bond_count_vec counts every bond once per direction under the coordination number and the elements of its atoms, for coordination numbers up to max_bonds; the vectors of a data set have one length and names; computing fingerprints (distribution_vec) leaves the structure unchanged.", "quantifier": "every structure, distance matrix, cutoff and max_bonds", "why_tests_cant": "coordination numbers beyond the test particle, vector lengths across data sets and side effects on later fingerprints are not observed by a test of one call", "anchors": ["catlearn/fingerprint/particle.py: ParticleFingerprintGenerator.bond_count_vec, distribution_vec"]}
{"id": "C171", "title": "default fingerprint sets", "statement": "default_fingerprinters returns the functions of the default set of every documented data type, in order, and raises ValueError for other types.", "quantifier": "every generator and data type", "why_tests_cant": "the sets are never requested together with the generator in the tests for all types", "anchors": ["catlearn/featurize/setup.py: default_fingerprinters", "catlearn/fingerprint/standard.py: default_molecule_fingerprinters"]}
{"id": "C172", "title": "pair features", "statement": "featurize_atomic_pairs returns one row per structure and ordered pair of its atoms, structure by structure in row-major order, with their distance, the occurrences of the elements and the two atomic numbers; the occurrences add up to two when the elements come from the data.", "quantifier": "every list of structures and every list of types", "why_tests_cant": "row order and completeness for all sizes; the test counts rows for one data set", "anchors": ["catlearn/featurize/setup.py: FeatureGenerator.featurize_atomic_pairs"]}
{"id": "C173", "title": "General preprocessing gives clean, standardised columns and treats later data the same way", "statement": "GeneralPrepreprocess.process keeps exactly the feature columns that are finite in every training row and are not constant, in their order, and returns training and test matrices in which every kept column went through one affine map; in the training matrix each column has mean 0 and variance 1, every entry is a number, no row is dropped and the targets are returned unchanged. transform afterwards gives later rows the same columns, offsets and scales, so it reproduces what process returned for the test matrix. An object that has not processed data refuses to transform, and a process that raises leaves the object usable as before.", "quantifier": "every training and test matrix, with any missing entries, any targets and any earlier state of the object", "why_tests_cant": "The same columns, offsets and scales must be used for all data that comes later, for every pattern of missing values; tests show a few matrices without missing targets and never a second or failing call.", "anchors": ["catlearn/estimator/general_preprocess.py: GeneralPrepreprocess.process, GeneralPrepreprocess.transform, GeneralPrepreprocess._eliminate_cleaner, GeneralPrepreprocess._standardize_scalar", "catlearn/preprocess/clean_data.py: clean_infinite, clean_variance", "catlearn/preprocess/scaling.py: standardize"]}
{"id": "C174", "title": "The default kernels of the general estimator fit the processed data", "statement": "For data as process returns it, the default length scale is 1 for a single parameter and for each feature; general_kernel and smooth_kernel return kernel lists that the Gaussian process accepts, with one parameter for dimension single and one for each feature for dimension features, whenever at least one feature is left; every documented dimension is accepted.", "quantifier": "every data matrix, both kernel lists, every dimension", "why_tests_cant": "The length scale must come out valid for all data, and the widths of every kernel of the list must have the right shape for every number of features; tests use one data set.", "anchors": ["catlearn/estimator/general_kernel.py: default_lengthscale, general_kernel, smooth_kernel", "catlearn/estimator/general_gp.py: GeneralGaussianProcess.train_gaussian_process", "catlearn/regression/gpfunctions/kernel_setup.py: prepare_kernels"]}
{"id": "C175", "title": "Neighbour sum and mean fingerprints describe the neighbourhood of every atom", "statement": "neighbor_sum_vec returns, for each element parameter, atom_len numbers: the sums of the parameter over the neighbours of each atom (neighbours in closer shells weighing more), in descending order, filled with zeros; neighbor_mean_vec returns the averages over the neighbours instead. The result does not depend on the numbering of the atoms, atoms without neighbours count zero, a missing value only affects the atoms next to it, and structures that do not fit are refused.", "quantifier": "every structure, every number of shells, all element parameters and any element data", "why_tests_cant": "The sorted and padded blocks hide which atom an entry belongs to, so tests only look at lengths; correctness for all neighbour matrices and invariance under renumbering need a proof.", "anchors": ["catlearn/fingerprint/graph.py: neighbor_sum_vec, neighbor_mean_vec, _normalize_neighbors, _prop2matrix, _initialize_features"]}
{"id": "C176", "title": "The CatApp fingerprint describes the two metals of the surface", "statement": "catapp_AB returns one value for each of its names: the data of the most frequent element among the ligand atoms, the data of the other element (the same one for a pure surface), their sum, the concentration type of the termination, the facet and the site type; the result does not depend on the order of the atoms, and unsupported terminations, facets and structures are refused.", "quantifier": "every list of ligand atoms, every termination and facet, any element data", "why_tests_cant": "The order of atoms and ties between elements decide the blocks; tests use one or two slabs.", "anchors": ["catlearn/fingerprint/catapp.py: CatappFingerprintGenerator.catapp_AB, facetdict"]}
{"id": "C177", "title": "Data attached to a structure is returned as it was last stored", "statement": "After extend_atoms_class, get_features, get_neighborlist and get_graph return the value last stored with the corresponding set method, None if there is none, whatever else was stored, read or extended in between; the neighbour list of a generator is that of the structure and is computed once; images_connectivity gives every structure a connectivity and keeps those that exist.", "quantifier": "every sequence of storing, reading, extending and moving; every list of structures", "why_tests_cant": "The three slots share one dictionary that is created lazily; only an invariant over all sequences of calls shows they do not interfere.", "anchors": ["catlearn/api/ase_atoms_api.py: extend_atoms_class, set_features, get_features, set_neighborlist, get_neighborlist, set_graph, get_graph, images_connectivity", "catlearn/featurize/base.py: BaseGenerator.get_neighborlist, BaseGenerator.make_neighborlist"]}
{"id": "C178", "title": "Structure, graph, adjacency matrix and neighbour list agree", "statement": "The graph of ase_to_networkx joins exactly the neighbouring atoms for the given cutoffs; networkx_to_adjacency has ones for the edges and the atomic numbers on its diagonal; matrix_to_nl reads the neighbour list back, refuses matrices that are not symmetric, and lists every connected pair.", "quantifier": "every neighbour list, any number of atoms, any stored data", "why_tests_cant": "Agreement of three representations for all neighbour lists, also those of periodic cells where atoms neighbour themselves; tests convert one molecule one way.", "anchors": ["catlearn/api/networkx_graph_api.py: ase_to_networkx, networkx_to_adjacency, matrix_to_nl"]}
{"id": "C179", "title": "The points of a learning curve summarise one level of results each", "statement": "get_statistic uses every prediction error of a hierarchy run once, puts the errors of one level (sizes that differ by at most one) into one point, and gives for each point the mean and the corrected standard deviation of its errors, independent of the order within the level.", "quantifier": "for all lists of sizes and errors, any number of levels and any number of results per level", "why_tests_cant": "The grouping depends on the order and spacing of all the sizes; a test shows one list only and cannot show that no result is dropped or merged into a foreign level for other sizes.", "anchors": ["catlearn/learning_curve/data_process.py: data_process.get_statistic, data_process.average_nested"]}
{"id": "C180", "title": "Features selected with lasso have the size they are filed under, and the search ends", "statement": "selection returns, for numbers of features strictly between the limits, sets with exactly that many features, and it always returns.", "quantifier": "for every behaviour of the lasso fit (any map from regularisation strength to selected features), all limits and numbers of features", "why_tests_cant": "The search loop depends on how the number of features changes with the strength; tests run it on one data set, and no test can show that the loop ends for all.", "anchors": ["catlearn/learning_curve/feature_selection.py: feature_selection.selection, feature_selection.alpha_finder, feature_selection.interval_modifier"]}
{"id": "C181", "title": "The errors reported for a training subset belong to the model trained on that subset", "statement": "hierarchy tests every training subset on every other subset of its level, and each error in result is computed with the coefficients fitted to that training subset.", "quantifier": "for all lists of subsets and every regression method", "why_tests_cant": "Wrong coefficients give errors of a plausible size; only following which fit enters which error, for every sequence of subsets, shows the mistake.", "anchors": ["catlearn/learning_curve/placeholder.py: placeholder.predict_subsets, placeholder.reg_data_var", "catlearn/learning_curve/learning_curve.py: hierarchy"]}
{"id": "C182", "title": "Learning curve errors do not depend on the units of the data", "statement": "With scaling switched on, changing the unit or the origin of the targets changes the reported error by the factor of the unit only, and changing units of features does not change it; global scaling scales the training features for both kinds of scaling.", "quantifier": "for all training and test data, all positive factors and all offsets, every regression method, normalisation and standardisation", "why_tests_cant": "The claim compares runs on infinitely many pairs of data sets that differ by a change of units.", "anchors": ["catlearn/learning_curve/data_process.py: data_process.scaling_data, data_process.globalscaling, data_process.prediction_error"]}
{"id": "C122", "title": "A fixed basis continues its own functions exactly", "statement": "predict with basis functions: a part of the training targets that is a combination of the basis functions is predicted exactly at every test point, with and without scaling of the data; unregularised predictions at the training points are the targets; fitting the basis never lowers a variance; basis functions that are dependent on the training points raise an error.", "quantifier": "for all covariances, bases, targets and test points, any number of each", "why_tests_cant": "The identities hold between predictions for all targets and all test points; a test compares a few numbers and has no reference for the prediction between the points.", "anchors": ["catlearn/regression/gaussian_process.py: GaussianProcess._fixed_basis, GaussianProcess._make_prediction"]}
{"id": "C183", "title": "Backward elimination keeps the most sensitive features and says which they are", "statement": "SensitivityAnalysis.backward_selection files its results under the number of features kept; abs_index names the columns of the data the user passed, for training and test data alike; every step removes features whose sensitivity is no larger than that of the features kept; a feature that is constant has sensitivity 0; results of a second call refer to the same data.", "quantifier": "for all training and test data, every optimiser and every sensitivity function, any number of features and any range of the selection", "why_tests_cant": "Which columns remain depends on the sensitivities found at every earlier step; a wrong index still names a plausible column, so tests on one data set do not notice.", "anchors": ["catlearn/regression/gpfunctions/sensitivity.py: SensitivityAnalysis.backward_selection, SensitivityAnalysis._opt_step, SensitivityAnalysis._mean_sensitivity"]}
{"id": "C184", "title": "The populations of GAFeatureSelection stay valid", "statement": "Whatever is drawn, every chromosome of every generation consists of the requested number of different features of the data, the population keeps its size, and evolve runs through for every admissible number of offspring.", "quantifier": "for all random draws, any number of generations, features, chromosomes and offspring", "why_tests_cant": "The invariant has to hold for every sequence of random draws and for every number of generations; tests follow one seed.", "anchors": ["catlearn/featurize/site_stability.py: GAFeatureSelection.__init__, GAFeatureSelection.crossover, GAFeatureSelection.mutate, GAFeatureSelection.evolve"]}
{"id": "C185", "title": "The scores of GAFeatureSelection belong to the chromosomes they are listed with", "statement": "After any number of generations the fitness recorded for a member of the population is the score of the features this member consists of.", "quantifier": "for all random draws and every scoring function that does not depend on the order of the features", "why_tests_cant": "A stale score is a plausible number; only an invariant over all runs relates it to the features.", "anchors": ["catlearn/featurize/site_stability.py: GAFeatureSelection.crossover, GAFeatureSelection.mutate"]}
{"id": "C186", "title": "GAFeatureSelection does not lose its best solution", "statement": "The maximum fitness reported does not fall from one generation to the next and is reached by a member of the population.", "quantifier": "for all random draws, scoring functions with values between 0 and 1, any number of generations", "why_tests_cant": "That the best member survives is a statement about every sequence of draws; a seeded test shows one.", "anchors": ["catlearn/featurize/site_stability.py: GAFeatureSelection.evolve, GAFeatureSelection.crossover, GAFeatureSelection.mutate"]}
{"id": "C187", "title": "Feature frequencies and homogeneity describe the population", "statement": "feature_frequencies lists every feature of the data with the percentage of the entries of all chromosomes that are this feature, in falling order; homogeneity is 0 exactly if every feature occurs somewhere.", "quantifier": "for all populations, any number of features", "why_tests_cant": "The percentages have to belong to the right names for every population; a population that misses one of the last features is not in any test.", "anchors": ["catlearn/featurize/site_stability.py: GAFeatureSelection.feature_frequencies, GAFeatureSelection.homogeneity"]}
{"id": "C188", "title": "get_site_index finds the atom that is missing", "statement": "For a structure and the same structure without one atom, get_site_index returns the index of that atom, or NaN if it cannot be told.", "quantifier": "for all structures, all removed atoms, any number of atoms and any coordinates", "why_tests_cant": "Whether another atom is taken for the missing one depends on all pairs of coordinates and on a relative tolerance; tests use a few crystals.", "anchors": ["catlearn/featurize/site_stability.py: get_site_index"]}
{"id": "C189", "title": "Cohesive energies and site stabilities are consistent", "statement": "The cohesive energy is the energy less the references of all atoms per atom; the stability of a site equals what the remaining atoms and the removed atom lose in cohesion, for the reference energies the user gave; missing energies or references are reported.", "quantifier": "for all energies, compositions and tables of reference energies", "why_tests_cant": "The identity connects two independently coded formulas for all compositions and reference tables.", "anchors": ["catlearn/featurize/site_stability.py: Material.cohesive_energy, SiteFeaturizer.get_DFT_site_stability, SiteFeaturizer.select_random_sites"]}
{"id": "C190", "title": "Random selections contain distinct sites of the images that are not excluded", "statement": "unique_sites lists every atom of every image once; a random selection has the requested number of different sites, each an atom of an image that is not excluded, and asking for more than there are is an error.", "quantifier": "for all lists of images, all excluded sets, all random draws and requested numbers", "why_tests_cant": "Whether a site is drawn twice depends on the random numbers; a test with one seed passes or fails by luck.", "anchors": ["catlearn/featurize/site_stability.py: SiteFeaturizer.unique_sites, SiteFeaturizer.select_random_sites, SiteFeaturizer.select_specific_sites"]}
{"id": "C191", "title": "Removing outliers removes the sites with that value and no others", "statement": "remove_outlier removes exactly the sites whose row has the given value in the given column; sites and table stay in step.", "quantifier": "for all tables, columns and values, any number of outliers", "why_tests_cant": "Removing by index from a list that gets shorter goes wrong only for some patterns of several outliers; a test shows one pattern.", "anchors": ["catlearn/featurize/site_stability.py: SiteFeaturizer.remove_outlier"]}
{"id": "C192", "title": "Cached feature tables describe the current sites", "statement": "site_features and normalized_site_features of SiteFeaturizer are those of the sites that are currently selected.", "quantifier": "for all sequences of selections, removals and refreshes", "why_tests_cant": "A stale table has the right shape; the claim is about every order of calls.", "anchors": ["catlearn/featurize/site_stability.py: SiteFeaturizer.site_features, SiteFeaturizer.normalized_site_features, SiteFeaturizer.refresh"]}
{"id": "C193", "title": "The pair distribution counts every pair once", "statement": "pair_distribution times the volume of the shells is the mean number of neighbours in each bin; the sum over the bins is the mean number of other atoms within the bounds, with no pair lost between bins or counted twice; the order of atoms and images is immaterial; empty input is reported.", "quantifier": "for all structures and distances, any number of images, atoms and bins, all bounds", "why_tests_cant": "That no distance falls between two bins and that all normalisations cancel is a statement about all real distances and all numbers of atoms; a histogram of one molecule looks plausible with a wrong factor.", "anchors": ["catlearn/utilities/distribution.py: pair_distribution, _distance_hist"]}
{"id": "C194", "title": "Partial pair distributions add up", "statement": "The distribution around the atoms of an element is the sum of its partial distributions over all elements, and the partial distributions of two elements are symmetric up to the ratio of the numbers of atoms.", "quantifier": "for all structures with any number of elements, any number of images", "why_tests_cant": "Sum rules hold between results for all structures and elements; a test compares a single partial distribution with a reference.", "anchors": ["catlearn/utilities/distribution.py: pair_distribution, _distance_hist"]}
{"id": "C195", "title": "Positions, periodicity and self pairs of pair distributions", "statement": "The positions returned are the centres of the bins; mic=False switches the minimum image convention off; pair_deviation counts pairs of different atoms only and reports elements without a radius.", "quantifier": "for all bounds, numbers of bins, structures and radii", "why_tests_cant": "A shift of the positions by a fraction of a bin, or an argument without effect, does not show in a test that checks the shape of the result.", "anchors": ["catlearn/utilities/distribution.py: pair_distribution, pair_deviation, _distance_hist"]}
{"id": "C196", "title": "Sammon's error measures the change of distances", "statement": "sammons_error is a non-negative number that is 0 exactly if the reduction keeps all distances; it does not depend on the order of the points, on rigid motions or on the unit of length.", "quantifier": "for all point sets of any size and dimension before and after the reduction", "why_tests_cant": "Invariance and the zero set are statements over infinitely many pairs of point sets; tests evaluate one reduction.", "anchors": ["catlearn/utilities/sammon.py: sammons_error"]}
{"id": "C197", "title": "Clustering keeps rows and targets together", "statement": "cluster_features puts every training and test row into exactly one cluster together with its own target, and every test row into the cluster of the nearest centroid; targets and test data are optional.", "quantifier": "for all centroids and labels found by kmeans2, all data, any number of rows and clusters", "why_tests_cant": "kmeans2 starts from random centroids, so a test cannot fix the labels; the statement is about every outcome.", "anchors": ["catlearn/utilities/clustering.py: cluster_features, _cluster_split"]}
{"id": "C198", "title": "The CatMAP landscape holds the minimum energy for each adsorbate", "statement": "catmap_energy_landscape stores for every kind of adsorbate the smallest predicted energy among the candidates, together with the uncertainty and the id of that candidate, keeps different kinds apart and leaves other entries alone.", "quantifier": "for all databases, predictions and uncertainties, any number of candidates", "why_tests_cant": "Which candidate is kept depends on the order and on all predictions with that key; a wrong comparison gives a plausible energy.", "anchors": ["catlearn/api/catmap.py: catmap_energy_landscape"]}
{"id": "C199", "title": "Formulas written for Magpie name the compound", "statement": "The formula written by PrototypeFingerprintGenerator is the symbols on the sites followed by their multiplicities, with 1 left out, so different compounds have different formulas.", "quantifier": "for all symbols and multiplicities of the sites, any number of sites", "why_tests_cant": "Removing characters from the joined string damages only some multiplicities (10, 11, 12, 21); tests use a perovskite.", "anchors": ["catlearn/fingerprint/prototype.py: PrototypeFingerprintGenerator.write_proto_input"]}
{"id": "C200", "title": "The highest atoms are taken as the adsorbate only if they are it", "statement": "z2ads_index returns distinct atoms with the composition of the species such that no other atom lies above one of them; if the adsorbate lies above everything else it is found, whichever way equal heights are sorted. Anything else is AssertionError.", "quantifier": "for all structures, heights, compositions and orders of equal heights", "why_tests_cant": "Ties between heights are decided by the sorting algorithm and depend on the structure; a fixture with distinct heights never meets them, nor the empty species.", "anchors": ["catlearn/featurize/adsorbate_prep.py: z2ads_index"]}
{"id": "C201", "title": "Adsorbates found by layer or element are complete", "statement": "layers2ads_index returns all atoms from the stored layer on, in order, exactly if they have the composition of the species; sym2ads_index returns all atoms of the elements and no others.", "quantifier": "for all structures, layer assignments, stored layers, compositions and lists of symbols", "why_tests_cant": "An off-by-one in the layer number shows only for structures in which the top layer and the adsorbate differ in composition; a claim about all structures needs the characterisation of the selected set.", "anchors": ["catlearn/featurize/adsorbate_prep.py: layers2ads_index", "catlearn/featurize/adsorbate_prep.py: sym2ads_index"]}
{"id": "C202", "title": "Comparison with the clean slab finds the adsorbate", "statement": "slab_positions2ads_index returns the atoms that belong to the adsorbate: of each element as many as in the species, those farthest from the atoms of the clean slab, every atom once; if they do not have the composition of the species it raises.", "quantifier": "for all structures, reference slabs, distances and compositions", "why_tests_cant": "The defects show only for species in which some elements are shared with the slab and others are not, or have several atoms of one element; the check that should catch a wrong answer compares values of different kinds and can never be seen failing.", "anchors": ["catlearn/featurize/adsorbate_prep.py: slab_positions2ads_index"]}
{"id": "C203", "title": "Reconstructed slabs are recognised", "statement": "compare_slab_connectivity reports a slab as changed exactly if some slab atom has gained or lost a bond against the reference, and check_reconstructions lists exactly the structures for which this holds.", "quantifier": "for all structures, references and connectivity matrices, any number of structures", "why_tests_cant": "Slabs and references with other numbers of atoms, or references of a single atom, take different paths; a test on one pair of equal shape sees none of them.", "anchors": ["catlearn/featurize/adsorbate_prep.py: compare_slab_connectivity", "catlearn/featurize/adsorbate_prep.py: check_reconstructions"]}
{"id": "C204", "title": "Layers of a slab hold every atom once", "statement": "slab_layers divides the atoms of a slab into non-empty layers that contain every atom exactly once, with the mean heights of the layers in ascending order; the heights in the layers vary by no more than the tolerance.", "quantifier": "for all structures, heights, tolerances, limits on the number of layers and any result of the clustering", "why_tests_cant": "The clustering is random and the stopping rule divides by the number of atoms minus the number of layers; slabs of a primitive cell, where this is zero, and oxides are separate cases that a test on a 2x2 metal slab never reaches.", "anchors": ["catlearn/featurize/slab_utilities.py: slab_layers"]}
{"id": "C205", "title": "K-fold splits survive a file", "statement": "read_split returns the folds that were last written by write_split under the same name and format, array by array with the same shapes, whatever was written under other names or formats in between; unsupported formats are refused.", "quantifier": "for all splits, file names, both formats and all sequences of writes", "why_tests_cant": "Shapes are lost only for folds without rows, and names could collide only for particular names; both are outside of the single round trip a test makes.", "anchors": ["catlearn/cross_validation/k_fold_cv.py: write_split", "catlearn/cross_validation/k_fold_cv.py: read_split"]}
{"id": "C206", "title": "The hierarchy works with the split just made", "statement": "After split_index, load_split returns the split that was made for this data with this minimum size.", "quantifier": "for all data sizes, minimum sizes, shuffles, formats and contents of the file before", "why_tests_cant": "It fails only if an older file is present and the sizes fall into a gap, or if the format string is not the literal of the source; a test in a clean directory with literal arguments sees neither.", "anchors": ["catlearn/cross_validation/hierarchy_cv.py: Hierarchy.split_index", "catlearn/cross_validation/hierarchy_cv.py: Hierarchy.load_split", "catlearn/cross_validation/hierarchy_cv.py: Hierarchy._write_split", "catlearn/learning_curve/learning_curve.py: hierarchy"]}
{"id": "C207", "title": "Subsets of the hierarchy hold the data that were stored", "statement": "After todb and split_index, the subsets of every level fetched with get_subset_data contain every data point exactly once with its own target; globalscaledata returns the features of all points once.", "quantifier": "for all data sets, any number of features, all uuids and shuffles, every level", "why_tests_cant": "Rows come back in an order that depends on the database and the chunking; pairing of features and targets for all sizes, and what a second call does, cannot be seen from one small array.", "anchors": ["catlearn/cross_validation/hierarchy_cv.py: Hierarchy.todb", "catlearn/cross_validation/hierarchy_cv.py: Hierarchy.get_subset_data", "catlearn/cross_validation/hierarchy_cv.py: Hierarchy.globalscaledata", "catlearn/cross_validation/hierarchy_cv.py: Hierarchy._get_index"]}
{"id": "C208", "title": "the bootstrap estimate of the prediction error", "statement": "bootstrap_calc returns the training error of the ridge solution on all data, the mean over the data points of the mean squared error that ridge solutions fitted to the samples without the point make on it, and the square root of 0.368 times the first plus 0.632 times the second.", "quantifier": "all data, priors, positive regularisations and lists of samples", "why_tests_cant": "the estimate is built from one regression per random sample; the cases of a point in every sample and of one sample only appear for some random draws", "anchors": ["catlearn/regression/ridge_regression.py: RidgeRegression.bootstrap_calc, bootstrap_master, _get_bootstrap_samples, _bootstrap_ERR"]}
{"id": "C123", "title": "a Gaussian process trained on gradients reproduces values and slopes", "statement": "A GaussianProcess made with gradients, without regularisation and noise, predicts the training targets at the training points, and the slopes of its prediction there are the training gradients, with or without scale_data.", "quantifier": "all training sets, numbers of features, gradients, widths and scalings for which training succeeds", "why_tests_cant": "a slope is a limit over all points near a training point; a test compares finite differences at sample points", "anchors": ["catlearn/regression/gaussian_process.py: GaussianProcess.__init__, predict, update_data, _make_prediction", "catlearn/regression/gpfunctions/kernels.py: gaussian_kernel, gaussian_xx_gradients, gaussian_xxp_gradients"]}
{"id": "C209", "title": "the uncertainty of a Gaussian process trained on gradients", "statement": "The uncertainty predict reports for a model with gradients is a number between zero and the prior standard deviation at every point, is never larger than that of the same model without the gradients, and is zero at the training points if there is no noise.", "quantifier": "all training sets, points, kernels and regularisations", "why_tests_cant": "a negative variance (nan) appears only for particular points and data; the comparison is between two models at every point", "anchors": ["catlearn/regression/gpfunctions/uncertainty.py: get_uncertainty", "catlearn/regression/gaussian_process.py: GaussianProcess.predict"]}
{"id": "C210", "title": "updating a Gaussian process trained on gradients", "statement": "update_data with new features, targets and gradients gives the model that would be made of these data; a model can be updated with or without gradients.", "quantifier": "all models, all new data", "why_tests_cant": "the update must be right after every earlier history and for every size of the new data", "anchors": ["catlearn/regression/gaussian_process.py: GaussianProcess.update_data, _update_lml"]}
{"id": "C211", "title": "the training error of a Gaussian process trained on gradients", "statement": "The training error predict reports for a model made with gradients is the error of its predictions of the training targets.", "quantifier": "all training sets, kernels and scalings", "why_tests_cant": "which entries enter the error depends on the numbers of points and features; any single value of the error is plausible", "anchors": ["catlearn/regression/gaussian_process.py: GaussianProcess.predict"]}
{"id": "C212", "title": "the surrogate of MLNEB", "statement": "The Gaussian process MLNEB trains on evaluated structures can always be trained, also with structures evaluated twice; far from all of them its energy is the highest energy evaluated, its uncertainty is a number everywhere, never above the prior standard deviation and close to it far away, and shifting the zero of energy shifts its energies and nothing else.", "quantifier": "all lists of structures, energies and forces, all masks of free coordinates, all hyperparameters the optimiser may return inside the bounds", "why_tests_cant": "the claim is about every point of the coordinate space, including limits, and about duplicated structures that make the covariance singular without noise", "anchors": ["catlearn/optimize/mlneb.py: train_gp_model, get_energy_catlearn"]}
{"id": "C213", "title": "the hyperparameters of MLMin", "statement": "Each iteration of MLMin trains its model with the hyperparameters of the last successful optimisation and a prior variance that belongs to the present data; an unknown kernel is refused.", "quantifier": "all runs: all numbers of structures, all outcomes of the optimisations", "why_tests_cant": "the state carried from one iteration to the next is shared dictionaries; what is wrong only shows after a particular sequence of successful and failed optimisations", "anchors": ["catlearn/optimize/mlmin.py: MLMin.run"]}
{"id": "C125", "title": "Gaussian processes do not influence one another", "statement": "What a GaussianProcess predicts depends on what was done to this object only: making, updating or optimising another one does not change it, nor the kernel dictionaries the user passed; an optimisation that raises leaves the model as it was.", "quantifier": "all sessions: any number of models, made, updated and optimised in any order with any dictionaries", "why_tests_cant": "the influence goes through dictionaries that are shared and changed in place; it only shows for particular orders of calls on several objects", "anchors": ["catlearn/regression/gaussian_process.py: GaussianProcess.__init__, update_data, optimize_hyperparameters", "catlearn/regression/gpfunctions/kernel_setup.py: prepare_kernels, list2kdict", "catlearn/regression/gpfunctions/log_marginal_likelihood.py: log_marginal_likelihood"]}
{"id": "C118", "title": "with scale_data the units of features and targets do not matter", "statement": "A GaussianProcess with scale_data=True that is given features a*x+b and targets c*t+d instead of x and t, at every step of its life, predicts c*p+d where it predicted p, and uncertainties c times as large.", "quantifier": "all training data, updates, optimisations, kernels, regularisations, test points and all units (a, c > 0)", "why_tests_cant": "equality of two models over all histories and all units; a test compares one pair of models, usually without constant features", "anchors": ["catlearn/regression/gpfunctions/default_scale.py: ScaleData.train, test, rescale_targets", "catlearn/regression/gaussian_process.py: GaussianProcess.__init__, update_data, optimize_hyperparameters, predict"]}
{"id": "C214", "title": "correlations of features with the target", "statement": "target_correlation returns, for each coefficient asked for, a row with one number per feature: Pearson, Spearman or Kendall coefficient of this feature and the target, between -1 and 1, nan for a constant feature or target; 1 exactly for a perfect (linear or monotone) relation; independent of the units of features and target. Names it does not know are refused.", "quantifier": "all data sets with at least two observations, any number of features, any list of coefficients", "why_tests_cant": "range, extreme values and invariance are statements about all data and all increasing functions; a test compares the numbers for one data set", "anchors": ["catlearn/utilities/utilities.py: target_correlation"]}
{"id": "C215", "title": "features of a site", "statement": "Material.get_site_features describes the neighbours of a site, the atoms elsewhere within the sum of the covalent radii plus 2 Angstrom: their number, and minimum, maximum, mean and standard deviation of their coordination numbers, atomic numbers, distances and angles. The features do not change when the structure is moved, rotated or reflected or its atoms are renumbered, and they do not depend on which periodic image of an atom the cell contains.", "quantifier": "all structures of any number of atoms, all sites", "why_tests_cant": "invariance concerns all rigid motions and permutations of all structures; a test compares numbers for one structure", "anchors": ["catlearn/featurize/site_stability.py: Material.get_site_features", "catlearn/featurize/site_stability.py: Material.site_angles", "catlearn/featurize/site_stability.py: Material.site_distances"]}
{"id": "C216", "title": "table of site features", "statement": "SiteFeaturizer.site_features has one row per site, in their order, and each column once; the entries of a row are those of the site alone, whatever other sites there are, and entries a site does not have are 0.", "quantifier": "all lists of sites of any length, with any number of elements each", "why_tests_cant": "the columns depend on the numbers of elements of all sites, and rows are merged one at a time; a test sees one mixture of materials", "anchors": ["catlearn/featurize/site_stability.py: SiteFeaturizer.site_features"]}
{"id": "C217", "title": "table of all possible sites", "statement": "SiteFeaturizer.features_of_all_sites has one row per atom of each image, in their order; the columns are the number of the image and all features, each once.", "quantifier": "all lists of images of any length, with any number of atoms and elements each", "why_tests_cant": "the order of the columns depends on the order of the images and their numbers of elements; a test sees one list of images", "anchors": ["catlearn/featurize/site_stability.py: SiteFeaturizer.features_of_all_sites"]}
{"id": "C218", "title": "vector of neighbour features", "statement": "neighbor_features returns, for each element, sums over its atoms of coordination numbers and generalised coordination numbers, and numbers of bonds, and the same for each property; the length of the vector depends only on the number of elements and of properties, and the vector does not depend on the numbering of the atoms.", "quantifier": "all structures of any number of atoms with up to four elements, all properties, all renumberings", "why_tests_cant": "invariance is a statement about all permutations of all structures, and it fails only for elements whose numbers collide in a hash table; a test with one structure does not see it", "anchors": ["catlearn/featurize/neighbor_matrix.py: neighbor_features, _get_features, property_matrix"]}
{"id": "C219", "title": "features of a material", "statement": "Material.system_features has the number of atoms, for each element its atomic number, number of atoms and valence electrons, and their means over the elements; the numbers of atoms of the elements add up to the number of atoms. The features do not depend on the order of the atoms and are the same in every run.", "quantifier": "all materials of any composition, all orders of the atoms, all iteration orders of the set of symbols", "why_tests_cant": "The order of a set of strings differs between runs of Python, and with it the order of sums; a test sees one run.", "anchors": ["catlearn/featurize/site_stability.py: Material.system_features", "catlearn/featurize/slab_utilities.py: stoichiometry"]}
{"id": "C220", "title": "generated fractions have the values of the fractions", "statement": "The numbers returned by generate_features(p, max_num, max_den) are the values of the fractions in lowest terms of the features, one number for each fraction.", "quantifier": "every list of numbers, all orders, with and without the constant", "why_tests_cant": "the expression text is written and evaluated separately for every sign, multiplicity and order; tests use positive features", "anchors": ["catlearn/preprocess/feature_engineering.py: generate_features", "catlearn/preprocess/feature_engineering.py: _decode_key", "catlearn/preprocess/feature_engineering.py: generate_positive_features"]}
{"id": "C221", "title": "energies in a file reach the sites they name and nothing else changes", "statement": "After update_site_file every site named in the energy file has the energy of the last row with its name; numbers, atoms, materials, reference energies and all other sites are unchanged.", "quantifier": "every list of sites and every energy file", "why_tests_cant": "all combinations of names, repeated rows, elements and tables of reference energies", "anchors": ["catlearn/featurize/site_stability.py: update_site_file", "catlearn/featurize/site_stability.py: Material.total_energy"]}
{"id": "C222", "title": "renewing the materials of sites keeps their energies", "statement": "SiteFeaturizer._update_materials keeps number, atoms and energies of every site, also if it raises; sites with both energies use the reference energies of the featurizer afterwards.", "quantifier": "every list of sites and every table of reference energies, every point at which it can raise", "why_tests_cant": "The claim includes every partial execution that ends with an exception at one of the sites; tests renew all sites successfully.", "anchors": ["catlearn/featurize/site_stability.py: SiteFeaturizer._update_materials"]}
{"id": "C223", "title": "written sites are found under their names", "statement": "After SiteFeaturizer.write_site_trajectories the structures of every site are in the files with the names of the site.", "quantifier": "every list of sites and every previous content of the folder", "why_tests_cant": "It depends on what the folder contains already and on all the sites that share a number; tests write one list to an empty folder.", "anchors": ["catlearn/featurize/site_stability.py: SiteFeaturizer.write_site_trajectories"]}
{"id": "C224", "title": "sites that are read have numbers of their own", "statement": "Sites read with SiteFeaturizer.traj_to_sites have different image numbers, which agree with the names under which they were written.", "quantifier": "every sequence of reads, after any selection of sites", "why_tests_cant": "Numbers are given anew in each step, so the claim is about all sequences of selecting, writing and reading; tests perform one.", "anchors": ["catlearn/featurize/site_stability.py: SiteFeaturizer.traj_to_sites", "catlearn/featurize/site_stability.py: SiteFeaturizer.read_sites"]}
{"id": "C225", "title": "learning curves can be computed with every documented option", "statement": "hierarchy and feature_frequency return for every combination of globalscale, featselect_featvar and smallest; errors are computed with coefficients of the subset and feature set they are reported for.", "quantifier": "every set of keys, every feature selection, every combination of the options", "why_tests_cant": "each option combination is a separate path over all hierarchies; the tests run the default combination only", "anchors": ["catlearn/learning_curve/learning_curve.py: hierarchy", "catlearn/learning_curve/learning_curve.py: feature_frequency", "catlearn/learning_curve/placeholder.py: placeholder.reg_feat_var", "catlearn/learning_curve/placeholder.py: placeholder.getstats"]}
{"id": "C226", "title": "a search of the genetic algorithm stops when it has stalled and leaves matching data", "statement": "GeneticAlgorithm.search stops before its last step exactly at the first generation at which the best fitness has not improved for more than `repeat` generations; every individual of the final population is listed with its own fitness, and the file written with writefile holds exactly this population and fitness.", "quantifier": "every population, every sequence of random choices, every fitness function and any number of steps", "why_tests_cant": "depends on whole histories of random generations; a test sees one seed and a few generations", "anchors": ["catlearn/ga/algorithm.py: GeneticAlgorithm.search", "catlearn/ga/convergence.py: Convergence.no_progress", "catlearn/ga/io.py: _write_data, read_data"]}
{"id": "C227", "title": "an interrupted search of the genetic algorithm can be continued", "statement": "A search continued from the population left by a previous search ends with the same population as one search of the same total length with the same random choices.", "quantifier": "every population, every way to divide the generations into two searches, every sequence of random choices", "why_tests_cant": "It compares two executions for all histories and all points of interruption, under the same random choices; tests do not continue searches.", "anchors": ["catlearn/ga/algorithm.py: GeneticAlgorithm.search", "catlearn/ga/io.py: read_data"]}
{"id": "C228", "title": "an emulation of active learning without a limit goes through all the data", "statement": "With n_max=None and a surrogate model that ranks all candidates, test_acquisition and every member of ensemble_test acquire every row exactly once, in the number of rounds the batch size requires.", "quantifier": "every data set, initial subset, batch size and ranking", "why_tests_cant": "the boundary between the rounded number of rounds and the size of the subset shows only for particular combinations of sizes", "anchors": ["catlearn/active_learning/algorithm.py: ActiveLearning.test_acquisition", "catlearn/active_learning/algorithm.py: ActiveLearning.ensemble_test"]}
{"id": "C229", "title": "features selected by regression are those with the largest coefficients", "statement": "RegressionFit.feature_select divides all features into accepted and rejected ones; the accepted ones have the largest absolute coefficients, with line_search those of the largest penalty which leaves enough features, and all of them are used by that model.", "quantifier": "every size, method and list of penalties, and all coefficients the models of scikit-learn may return", "why_tests_cant": "quantifies over all results of the external solvers, including those for which no penalty leaves enough features", "anchors": ["catlearn/regression/scikit_wrapper.py: RegressionFit.feature_select", "catlearn/regression/scikit_wrapper.py: RegressionFit._lasso"]}
{"id": "C230", "title": "the prediction error requested from RegressionFit is returned", "statement": "With predict=True the result of RegressionFit.feature_select holds the average error of the predictions for the test data.", "quantifier": "all data, methods and predictions", "why_tests_cant": "the value made up for a missing key looks like a result; holds for no input at all", "anchors": ["catlearn/regression/scikit_wrapper.py: RegressionFit.feature_select", "catlearn/regression/cost_function.py: get_error"]}
{"id": "C231", "title": "an ML-NEB calculation can be continued in its directory", "statement": "After any number of evaluations, a new MLNEB object created in the same directory with restart=True has exactly the training data (geometries, energies, gradients) of the interrupted one; the data contain the two endpoints.", "quantifier": "every sequence of evaluated structures, every calculator, every value of restart, prev_calculations and force_consistent, every previous content of the directory", "why_tests_cant": "a test restarts one calculation of one calculator; the data are lost or change only for other combinations of the arguments and for calculators that have a free energy", "anchors": ["catlearn/optimize/mlneb.py: MLNEB.__init__, eval_and_append, get_energy_catlearn", "catlearn/optimize/io.py: ase_to_catlearn, store_trajectory_neb"]}
{"id": "C232", "title": "each pass of ML-NEB starts from a path between the end points", "statement": "In every pass of MLNEB.run the first cycle starts from the initial path and the second one from the path predicted last; every path runs from the initial to the final state, with the end points only at its ends. run can be called again.", "quantifier": "every number of images, every sequence of passes and cycles, whatever the optimisation on the surrogate does; with and without sequential", "why_tests_cant": "the path is kept in a file that grows with every pass; which part of it is read depends on the whole history of numbers of images", "anchors": ["catlearn/optimize/mlneb.py: MLNEB.run, create_ml_neb", "catlearn/optimize/io.py: store_trajectory_neb"]}
{"id": "C233", "title": "the results of a converged ML-NEB describe the final model", "statement": "The table results_neb.csv written at the end of a converged run holds, for each image, the energy and twice the uncertainty predicted by the process trained on all evaluated structures.", "quantifier": "every surrogate, every path and data set", "why_tests_cant": "the energies shown differ from those of the final process only by the last training step, which a test with a tolerance cannot tell apart", "anchors": ["catlearn/optimize/mlneb.py: get_results_predicted_path, ASECalc, MLNEB.run", "catlearn/optimize/io.py: store_results_neb"]}
{"id": "C234", "title": "an MLMin calculation can be continued from its trajectory file", "statement": "A new MLMin object that reads the trajectory file of an interrupted or finished run has the same lists of geometries, energies, gradients and forces in the same order, so that it goes on from the structure evaluated last.", "quantifier": "every run, every initial structure and list of previous calculations", "why_tests_cant": "depends on the whole list of evaluated structures and on which structure the caller restarts from", "anchors": ["catlearn/optimize/mlmin.py: MLMin.__init__, MLMin.run"]}
{"id": "C235", "title": "Units of the features of a general Gaussian process", "statement": "Training a GeneralGaussianProcess on the same data with the features expressed in other units (each feature multiplied by a positive factor and shifted) gives the same fitted process or the same exception, and gaussian_process_predict gives the same result for every test set expressed in the units of the training.", "quantifier": "every data set, every change of units, both kernels and dimensions, every fitting and prediction routine", "why_tests_cant": "relates two whole trainings with different inputs; tests use one system of units", "anchors": ["catlearn/estimator/general_gp.py: GeneralGaussianProcess.train_gaussian_process, gaussian_process_predict", "catlearn/estimator/general_preprocess.py: GeneralPrepreprocess.process, transform"]}
{"id": "C236", "title": "Predictions of a general Gaussian process belong to its last successful training", "statement": "gaussian_process_predict answers with the process of the last successful training, applied to test rows restricted to the columns informative in that training and scaled with its means and deviations; a training that raises leaves the predictions as they were; an object that was never trained refuses.", "quantifier": "every sequence of trainings on one object, every data set and test set", "why_tests_cant": "needs a training that fails after another that succeeded, and a comparison of predictions before and after", "anchors": ["catlearn/estimator/general_gp.py: GeneralGaussianProcess", "catlearn/estimator/general_preprocess.py: GeneralPrepreprocess"]}
{"id": "C237", "title": "A search of the genetic algorithm depends on the order of fitness values only", "statement": "If the fitness function is replaced by a strictly increasing function of it (errors in other units, squared errors, logarithms) and the random numbers are the same, search selects the same parents, goes through the same populations, writes the same individuals to the file, stops at the same generation and returns the same individuals in the same order. With several objectives each of them may be replaced by its own increasing function, and the ranks are the same as well.", "quantifier": "every fitness function and increasing transformation, all random numbers, population sizes, numbers of generations, options and criteria of convergence", "why_tests_cant": "relates two whole random searches with different fitness values; tests run one search and look at its result", "anchors": ["catlearn/ga/algorithm.py: GeneticAlgorithm.search, _new_generation, _selection, _pareto_transform", "catlearn/ga/natural_selection.py: population_reduction, remove_duplicates", "catlearn/ga/convergence.py: Convergence.no_progress"]}
{"id": "C238", "title": "Feature selection does not depend on the units of features and targets", "statement": "With the fitness functions minimize_error and minimize_error_descriptors, the cross-validated fitness of a selection of features changes by the unit of the targets when features and targets are expressed in other units, and a whole search with the same random numbers visits and returns the same selections of features. If no test set is empty and the targets of no training set are all equal, the fitness of every selection is a number, and it is not positive. A fitness has as many entries as objectives were announced, and a fitness function returning another number of them is refused.", "quantifier": "every data set, division into folds, selection, change of units, and optimiser of hyperparameters that is a function of the stored data", "why_tests_cant": "relates two whole searches with Gaussian processes fitted to different numbers; tests use one system of units and scores depend on the optimiser", "anchors": ["catlearn/ga/predictors.py: minimize_error, minimize_error_descriptors, minimize_error_time", "catlearn/ga/algorithm.py: _cross_validate, GeneticAlgorithm.search", "catlearn/regression/gaussian_process.py: GaussianProcess"]}
{"id": "C239", "title": "imputation fills exactly the features that are complete enough, from the training data", "statement": "With max_impute_fraction=f, clean_infinite returns exactly the features in which at most the fraction f of the training values is missing (and masked ones); numbers are unchanged and every missing value of training and test data is replaced by the statistic of the training values of that feature.", "quantifier": "every training and test matrix with missing and infinite values, every fraction, mask and set of labels", "why_tests_cant": "The claim quantifies over all patterns of missing values and relates test data to statistics of the training data; the test suite has one matrix with one missing value.", "anchors": ["catlearn/preprocess/clean_data.py: clean_infinite"]}
{"id": "C240", "title": "clean_infinite leaves the matrices of the caller alone", "statement": "The training and test matrices given to clean_infinite have the same contents after the call.", "quantifier": "every pair of matrices, with and without imputation", "why_tests_cant": "An effect on an argument shared with the caller is not visible in the returned value, which is all the tests look at.", "anchors": ["catlearn/preprocess/clean_data.py: clean_infinite"]}
{"id": "C241", "title": "The order of the features is immaterial to a Gaussian process", "statement": "A Gaussian process trained and evaluated on data with renamed, reordered or (if no kernel uses them) omitted features, with kernels that name the same features with the same widths, can be built whenever the original one can, and gives the same predictions and uncertainties, with and without scale_data.", "quantifier": "every training and test set, list of kernels, regularisation, map of the new features to the old ones, with and without standardisation", "why_tests_cant": "relates two models on different representations of the same data; tests train one model with one order of columns", "anchors": ["catlearn/regression/gpfunctions/covariance.py: get_covariance", "catlearn/regression/gpfunctions/kernels.py", "catlearn/regression/gaussian_process.py: GaussianProcess", "catlearn/regression/gpfunctions/default_scale.py: ScaleData"]}
{"id": "C242", "title": "The amplitude of the covariance does not change predictions", "statement": "Multiplying the covariance of a Gaussian process by c^2 (the scaling of every kernel that is added) and its regularisation by c leaves every prediction unchanged and multiplies every uncertainty, with and without regularisation, by c.", "quantifier": "every training and test set, list of added and multiplied kernels, regularisation and c > 0, with and without standardisation", "why_tests_cant": "relates two models with different hyperparameters through inverses of different matrices; tests compare with recorded errors of one model", "anchors": ["catlearn/regression/gpfunctions/covariance.py: get_covariance", "catlearn/regression/gaussian_process.py: GaussianProcess.predict, predict_uncertainty", "catlearn/regression/gpfunctions/uncertainty.py: get_uncertainty"]}
{"id": "C243", "title": "Scaled data do not depend on units, and scaling them again changes nothing", "statement": "standardize, normalize and min_max give the same scaled training and test data when features are given in other units or with another zero, and applied to their own results they change nothing (offset 0, divisor 1); unit_length does not depend on the lengths of the vectors and is idempotent; standardised and normalised targets do not depend on units and zero of the targets.", "quantifier": "every training and test matrix, local and global scaling, every positive factor and offset for each feature", "why_tests_cant": "an invariance over all changes of units and an idempotence; tests scale one matrix once", "anchors": ["catlearn/preprocess/scaling.py: standardize, normalize, min_max, unit_length, target_standardize, target_normalize, target_center"]}
{"id": "C244", "title": "The ranking of candidates does not depend on the units of the target", "statement": "When targets, predictions, uncertainties and a target value aimed at are expressed in other units or with another zero, the scores returned by rank for all metrics change by one increasing function for all candidates, so candidates are ranked in the same order.", "quantifier": "every list of targets, predictions and positive uncertainties, every objective, kappa, positive factor and offset", "why_tests_cant": "an invariance over all changes of units; tests evaluate the scores of one data set", "anchors": ["catlearn/active_learning/acquisition_functions.py: rank, optimistic, UCB, EI, PI, probability_density, proximity, optimistic_proximity, cluster"]}
{"id": "C245", "title": "Ridge regression does not depend on order, axes and units of the data", "statement": "The coefficients of ridge regression on reordered features and data points are the reordered coefficients; without a prior, predictions are the same in any orthogonal axes of the features; coefficients are in units of the target divided by units of the features (with the regularisation in squared units of the features), and so is the leave-one-out error; the search for the regularisation finds the same value for targets in other units and b^2 times the value for features multiplied by b. The same holds for get_coefficients with leave-one-out cross validation from data to coefficients.", "quantifier": "every data matrix, targets, regularisation, prior, permutation, orthogonal matrix, change of units, number of steps of the search", "why_tests_cant": "relates fits to two different data sets whose singular value decompositions differ; the tests fit one data set", "anchors": ["catlearn/regression/ridge_regression.py: RidgeRegression.RR, predict, LOOCV, find_optimal_regularization"]}
{"id": "C246", "title": "A Gaussian process with the linear kernel is ridge regression", "statement": "GaussianProcess with the linear kernel and regularisation r gives the same predictions as RidgeRegression with omega2 = r^2 and no prior, on the same training data.", "quantifier": "every training set, r different from zero and test set", "why_tests_cant": "relates two implementations, one with an inverse of the size of the data, the other with a singular value decomposition of the size of the features; no test compares them", "anchors": ["catlearn/regression/gaussian_process.py: GaussianProcess.predict", "catlearn/regression/ridge_regression.py: RidgeRegression.RR, predict"]}
{"id": "C247", "title": "Kernels of differences do not depend on the zero of the features", "statement": "A Gaussian process without linear kernel and without scale_data gives the same predictions, uncertainties and likelihood when all features are shifted, with and without gradients in the training data, and also when features are given in other units and the widths with them.", "quantifier": "every training and test set, list of kernels other than linear, shift and factors, linear and logarithmic hyperparameters", "why_tests_cant": "relates two models on different numbers; the tests have one data set with one origin", "anchors": ["catlearn/regression/gpfunctions/kernels.py", "catlearn/regression/gpfunctions/covariance.py: get_covariance", "catlearn/regression/gaussian_process.py: GaussianProcess"]}
{"id": "C248", "title": "The learning curve of the hierarchical cross-validation averages each level on its own", "statement": "For the subsets produced by split_index and a prediction function that reports the size of its training set, transform_output applied to the output of split_predict returns one point per level of the hierarchy, ordered from the smallest subsets to the largest: the abscissa is the size of the subsets of the level (rounded up) and the ordinate is the mean, over all ordered pairs of different subsets of the level, of the error of training on the first and testing on the second. Without reported sizes the curve is empty; with fewer results than sizes IndexError is raised.", "quantifier": "for all tables, shuffles, error functions and minimum sizes", "why_tests_cant": "the merging of sizes that differ by one depends on every size on every level at once; tests look at one data set, usually a power of two", "anchors": ["catlearn/cross_validation/hierarchy_cv.py: Hierarchy.transform_output, Hierarchy.split_predict"]}
{"id": "C249", "title": "the logarithmic error counts every pair", "statement": "With the metric log, get_error compares the logarithms of prediction and target (each increased by one) for every pair; the average is zero exactly if every prediction is right, it is at most the root-mean-squared error for values that are not negative, and predictions that are all too large by one factor have the logarithm of the factor as error.", "quantifier": "all lists of predictions and targets", "why_tests_cant": "the claim is about all real values: a test picks positive numbers, and the pairs that are dropped or clipped are those a test does not contain", "anchors": ["catlearn/regression/cost_function.py: get_error"]}
{"id": "C250", "title": "Refining a lasso penalty keeps the number of features", "statement": "alpha_refinment returns a penalty that is at least the one it was given and still selects the requested number of features; with one step it is the largest of the penalties inspected that does.", "quantifier": "all models (numbers of selected features as a function of the penalty), numbers of inspected penalties, steps and bounds", "why_tests_cant": "the number of features is an arbitrary, not even monotone, function of the penalty; a test has one data set", "anchors": ["catlearn/learning_curve/feature_selection.py: feature_selection.alpha_refinment, feature_selection.alpha_finder"]}
{"id": "C251", "title": "The history of GAFeatureSelection describes the populations it went through", "statement": "The table returned by evolve has one row per generation with the maximum, the mean (never above the maximum) and the homogeneity of the population before that generation, and feature_frequency_evolution gains the frequencies of the same populations. evolution_history keeps the rows of earlier calls, gains those of the last call and is numbered from zero without gaps; calling evolve twice leaves the same population, history and frequencies as calling it once with all generations.", "quantifier": "every scoring function, population, number of generations and calls, and all outcomes of the random draws", "why_tests_cant": "relates sequences of calls and the records kept across them; a test looks at the shape of one table", "anchors": ["catlearn/featurize/site_stability.py: GAFeatureSelection.evolve, mean_population_fitness, max_population_fitness, homogeneity, feature_frequencies"]}
{"id": "C252", "title": "Screening does not depend on the units and zeros of features and target", "statement": "The order of the features, the number kept and the correlations returned by FeatureScreening.screen are the same when every feature is expressed in its own other unit and from another zero, and the target likewise; reversing the sign of a feature or of the target reverses only the sign of the correlation.", "quantifier": "all matrices, all targets, all correlation coefficients without units, all affine changes of every column and the target", "why_tests_cant": "The features taken to be constant are found with an absolute tolerance and a tolerance relative to the first value; a test has to hit the unit or the zero at which a varying feature is taken to be constant.", "anchors": ["catlearn/preprocess/feature_elimination.py: FeatureScreening.screen", "catlearn/preprocess/feature_elimination.py: FeatureScreening._get_correlation"]}
{"id": "C253", "title": "Outlier removal does not depend on the units, zero, sign and order of the data", "statement": "remove_outliers keeps the same data when the targets are expressed in another unit and from another zero, when their sign is reversed (high and low exchanged), and when the data are given in another order.", "quantifier": "all lists of features and targets, all thresholds, all constraints, all units and zeros, all orders", "why_tests_cant": "It is a statement about pairs of calls on every data set with every change of unit and every permutation; a test compares a few pairs.", "anchors": ["catlearn/preprocess/clean_data.py: remove_outliers"]}
{"id": "C254", "title": "Screening does not depend on the order of the data", "statement": "Correlation coefficients of a feature and the target, and with them the order of the features, the correlations and the number of features returned by FeatureScreening.screen, are the same when the data (rows of features and target) are given in another order.", "quantifier": "all data sets, all permutations of the rows, every coefficient, with and without random features", "why_tests_cant": "There are n! orders, and the test for constant features singles out the first row; the orders in which this matters are few, and a test uses one order.", "anchors": ["catlearn/preprocess/feature_elimination.py: FeatureScreening.screen", "catlearn/preprocess/feature_elimination.py: FeatureScreening._get_correlation"]}
{"id": "C255", "title": "Cleaning does not depend on the units, zeros and order of the data", "statement": "clean_variance and clean_skewness remove the same features when every feature is expressed in its own other unit, from another zero or with the other sign, and when the rows are given in another order; clean_infinite keeps the same features and the same pairs of row and target for every order of the rows.", "quantifier": "all matrices with missing values, all test matrices and labels, all affine changes of every column, all permutations of the rows, all thresholds", "why_tests_cant": "A variance is compared with an absolute tolerance, which shows only in units in which a feature that varies has small numbers; the claim is about pairs of calls for every change of unit and every permutation.", "anchors": ["catlearn/preprocess/clean_data.py: clean_variance", "catlearn/preprocess/clean_data.py: clean_skewness", "catlearn/preprocess/clean_data.py: clean_infinite"]}
{"id": "C256", "title": "The kernels for categories and with scaled features are covariance functions", "statement": "AA_kernel and scaled_sqe_kernel return a symmetric, positive semidefinite matrix for hyperparameters in their range. AA_kernel with theta=[l, c] depends on the categories of two rows only through the features in which they agree (l for each, and (1-l)/(c-1) for each feature in which they differ); the logarithms of the hyperparameters with log_scale=True give the same matrix; missing hyperparameters and gradients are refused.", "quantifier": "all hyperparameters, all numbers of rows and features, all numbering of categories", "why_tests_cant": "Positive semidefiniteness is about all quadratic forms, and independence from the numbering of categories is about all numberings; neither function is called by any test.", "anchors": ["catlearn/regression/gpfunctions/kernels.py: AA_kernel", "catlearn/regression/gpfunctions/kernels.py: scaled_sqe_kernel"]}
{"id": "C257", "title": "The variances reported by catlearn_pca are the shares of variance along its components", "statement": "The list `variance` that `catlearn_pca` returns gives, in percent, the part of the sum of squares of the decomposed data that is found along each component; the first number is therefore 100 times the sum of squares of the first column of `train_features` divided by the sum of squares of the (scaled) training data. The code reports shares of the singular values, not of their squares: the first number is too small whenever another component has a smaller variance that is not zero.", "quantifier": "All training and test matrices, any number of components, both settings of scale, any singular value decomposition of the data.", "why_tests_cant": "A test on a fixed matrix compares with numbers the code produced. The statement relates a reported percentage to the squares of another output for every matrix, through the orthogonality of both sides of a singular value decomposition; where the shares differ, they differ for every such matrix, not for one.", "anchors": ["catlearn/preprocess/feature_extraction.py: catlearn_pca"]}
{"id": "C258", "title": "Principal components treat test data like training data", "statement": "`catlearn_pca`, `pca`, `spca` and `pls` transform every row by one map that is learned from the training data: a test row equal to a training row gets the same components, test data have no influence on the training result, on the variances or on each other, every row has as many entries as components asked for, and the test data can be left out. Zero components are refused. With `cleanup=True` and no test data, `catlearn_pca` raises an exception on every input.", "quantifier": "All training and test matrices, any number of components, all settings of cleanup and scale, any result of the decomposition, any scikit-learn model.", "why_tests_cant": "Leakage of test data into the training result can only be excluded by comparing runs with all possible test data; unit tests have one test matrix, and never call the function without one and with cleanup.", "anchors": ["catlearn/preprocess/feature_extraction.py: catlearn_pca", "catlearn/preprocess/feature_extraction.py: pca", "catlearn/preprocess/feature_extraction.py: pls", "catlearn/preprocess/feature_extraction.py: spca", "catlearn/preprocess/clean_data.py: clean_variance"]}
{"id": "C259", "title": "Engineered features of a row do not depend on the other rows", "statement": "The features that `single_transform`, `get_order_2`, `get_order_2ab`, `get_div_order_2` and `get_ablog` compute for a row depend on this row only, so training and test data may be transformed separately. This is violated by the roots and logarithms of `single_transform` and by `get_ablog`: they are shifted by the smallest entry of the matrix that is given.", "quantifier": "All matrices of any sizes that have a row in common, at any positions.", "why_tests_cant": "A test transforms one matrix. Whether the same row gets the same features in another matrix is a relation between two calls, for all pairs of matrices.", "anchors": ["catlearn/preprocess/feature_engineering.py: single_transform, get_order_2, get_order_2ab, get_div_order_2, get_ablog"]}
{"id": "C260", "title": "Screening does not depend on the order of the features", "statement": "The order in which the features (columns) are given does not change which features `screen`, the selection by regression coefficients and one elimination prefer. The sorted correlations are the same in all cases; the order of the features is the same up to renumbering if no two features are equally strong. It is violated for equally strong features, such as a feature and its negative: the one given first is preferred.", "quantifier": "All numbers of features, all columns and all permutations of them; all correlation functions and tests for constants", "why_tests_cant": "There are factorially many orders of the features; a test tries a few.", "anchors": ["catlearn/preprocess/feature_elimination.py: FeatureScreening.screen", "catlearn/preprocess/feature_elimination.py: FeatureScreening.eliminate_features", "catlearn/regression/scikit_wrapper.py: RegressionFit.feature_select"]}
{"id": "C261", "title": "Cleaning follows a reordering of the features", "statement": "If the columns of the training data, the test data and the labels are reordered alike, `clean_variance`, `clean_skewness` and `clean_infinite` keep the same features: the flags in `index` are those of the moved features, and one permutation of the kept features leads from one result to the other, for training data, test data and labels alike; the targets are the same. What raises an error raises the same error. The features given as `mask` of `clean_infinite` are renumbered with the others.", "quantifier": "All sizes, all matrices with missing entries, all permutations of the features, with and without test data, targets, labels and mask", "why_tests_cant": "There are factorially many orders of the features, and the alignment of four returned arrays has to hold for each of them.", "anchors": ["catlearn/preprocess/clean_data.py: clean_variance", "catlearn/preprocess/clean_data.py: clean_skewness", "catlearn/preprocess/clean_data.py: clean_infinite"]}
{"id": "C262", "title": "A Material answers as a new one, whatever was asked before", "statement": "After any sequence of calls of `get_site_features`, `site_angles`, `site_distances` and `create_defect` on one `Material`, `get_site_features(i)` returns the features that a newly made `Material` returns, and the angles and distances are those of the site that was chosen last (the pairs of neighbours of the site, the neighbours of the site). This is violated in two ways. Asking for `site_angles` or `site_distances` before a site has been chosen raises ValueError and clears the connection matrix, since `cm[None]` is a view on all of it; from then on `get_site_features` raises ValueError for every site. When the atoms are moved, the neighbours remain the old ones.", "quantifier": "All structures, all sequences of calls of any length, all sites", "why_tests_cant": "Tests ask each object once; the effect is on later calls, through a view on an array.", "anchors": ["catlearn/featurize/site_stability.py: Material.get_site_features", "catlearn/featurize/site_stability.py: Material.site_angles", "catlearn/featurize/site_stability.py: Material.site_distances", "catlearn/featurize/site_stability.py: Material.create_defect"]}
{"id": "C263", "title": "Feature elimination does not depend on the order of the features", "statement": "If the features (columns) are given in another order and the errors of the model do not depend on the order of its columns, `greedy_elimination` and `importance_elimination` remove the same features, in the same order and with the same scores, and the same features survive. This holds if in no round two surviving features have the same score; it is violated otherwise: of two equally good features one position is removed, whichever feature stands there.", "quantifier": "All numbers of features, step sizes and folds, all permutations, all error functions, any `argsort` in either run", "why_tests_cant": "There are factorially many orders of the features and the scores of all rounds enter.", "anchors": ["catlearn/preprocess/greedy_elimination.py: GreedyElimination.greedy_elimination", "catlearn/preprocess/importance_testing.py: ImportanceElimination.importance_elimination"]}
{"id": "C264", "title": "After normalize_features the bags of atoms and bonds accept every structure of the data", "statement": "After `normalize_features(train, test)` the fingerprints `bag_atoms_ads`, `bag_edges_ads`, `bag_edges_chemi` and `bag_edges_all` return, for every structure of the training and of the test data, a vector of a length that is the same for all of them; `return_vec` and `featurize_atomic_pairs` do not change the elements found. This is violated by `bag_edges_all`: it reads `ads_atom_types`, which nothing in the package assigns (`_get_ads_atom_types` is never called), and raises AttributeError for every structure and for the names.", "quantifier": "All data, all sequences of public calls of a generator, all structures", "why_tests_cant": "A test calls a fingerprint on the structures at hand; which attributes exist depends on the calls made before.", "anchors": ["catlearn/featurize/setup.py: FeatureGenerator.normalize_features, _get_atom_types, _get_ads_atom_types, return_vec", "catlearn/fingerprint/adsorbate.py: AdsorbateFingerprintGenerator.bag_edges_all, bag_edges_ads, bag_edges_chemi, bag_atoms_ads"]}
{"id": "C265", "title": "A prediction depends on no other test point", "statement": "GaussianProcess.predict computes with matrices for all test points at once; the prediction and the uncertainties it returns in position i are those of a call with test point i alone, whatever other points are in the list. The same holds for predictions and covariances with basis functions, and for the rows that the general estimator transforms. If a call fails for a list of points, it fails in the same way for each of them; no points at all are refused.", "quantifier": "all models whatever their state, all kernels, all lists of test points, with and without uncertainties, scaling and basis", "why_tests_cant": "A test uses one list of test points; independence is a relation between calls with all possible lists.", "anchors": ["catlearn/regression/gaussian_process.py: GaussianProcess.predict, _make_prediction, _fixed_basis", "catlearn/regression/gpfunctions/covariance.py: get_covariance", "catlearn/regression/gpfunctions/uncertainty.py: get_uncertainty", "catlearn/estimator/general_preprocess.py: GeneralPrepreprocess.transform"]}
{"id": "C266", "title": "connections and distributions of particles are those of the element they are reported for", "statement": "connections_vec and distribution_vec return one block per element of atom_types, in order, which describes the atoms of that element: how many of them have how many connections, and their distribution over the distances from the centre; the numbering of the atoms does not matter.", "quantifier": "every structure, bond graph, list of elements, max_bonds and history of the generator", "why_tests_cant": "the blocks are only compared by their length in the tests; what they count must hold for every graph and composition", "anchors": ["catlearn/fingerprint/particle.py: ParticleFingerprintGenerator.connections_vec", "catlearn/fingerprint/particle.py: ParticleFingerprintGenerator.distribution_vec"]}
{"id": "C267", "title": "columns of rdf_vec mean the same for all structures", "statement": "rdf_vec returns the partial radial distribution functions of all ordered pairs of elements; entry j of the vectors of two structures describes the same pair of elements and the same distance.", "quantifier": "every set of elements, order of the set and radial distribution function", "why_tests_cant": "the order of a Python set and vectors of other compositions do not show in a test of one particle", "anchors": ["catlearn/fingerprint/particle.py: ParticleFingerprintGenerator.rdf_vec"]}
{"id": "C268", "title": "A minimisation depends neither on the place of the structure nor on the zero of the energy", "statement": "If MLMin is started from a structure translated by any vector (with previous calculations translated likewise, and a calculator whose energies differ by a constant and whose forces at translated structures are the same), the constructor keeps the same previous calculations, and run with the Gaussian process and the same hyperparameters and optimiser decisions ends in the same way: it raises the same error, or stops for the same reason after the same number of iterations, with every training structure translated, every energy shifted by the constant, and the same gradients and largest forces.", "quantifier": "all structures, translations of each coordinate, energy shifts, previous calculations, masks, calculators, kernels without a linear kernel, acquisition names, budgets and numbers of passes", "why_tests_cant": "Tests minimise one structure at one place with one energy zero; the relation concerns pairs of complete runs for every landscape and every translation.", "anchors": ["catlearn/optimize/mlmin.py: MLMin.__init__, run, fit", "catlearn/optimize/constraints.py: apply_mask", "catlearn/optimize/functions_calc.py"]}
{"id": "C269", "title": "A search for a saddle point does not depend on where the structures are nor on the zero of the energy", "statement": "MLNEB.run on structures that were all moved in the same way (shifted, turned or reflected), with a calculator whose energies are larger by a constant, makes the same evaluations in the same order at the moved images, converges, uses up its budget or raises in the same way, and leaves the moved tables: energies larger by the constant, the same largest forces, numbers of images, iterations and evaluations, provided the path found on the surrogate moves along. Turning or reflecting all atoms does not change the largest force.", "quantifier": "all motions of the structures, constants, numbers of images, acquisitions, thresholds, budgets, states of the object and calculators", "why_tests_cant": "two whole searches with a real calculator would have to be compared, for every motion and every constant; a comparison with the absolute energy or with a fixed position in one of the choices would show only for some landscapes", "anchors": ["catlearn/optimize/mlneb.py: MLNEB.run", "catlearn/optimize/mlneb.py: get_fmax", "catlearn/optimize/mlneb.py: eval_and_append"]}
{"id": "C270", "title": "A model of values and gradients with one width does not depend on the axes of the features", "statement": "GaussianProcess trained with gradients, Gaussian kernels that have one width for all features, constants and noise: if all features are turned or reflected by an orthogonal matrix and shifted, and the gradients are turned alike, the model can be made or raises as before, and predictions and uncertainties at turned points are the same; so is the likelihood for all hyperparameters. Hence the surrogate of MLNEB does not depend on place and orientation of the free atoms nor on the zero of the energy, its hyperparameters included; with two widths this fails.", "quantifier": "all numbers of features and points, orthogonal matrices, shifts, lists of such kernels, hyperparameters, targets, gradients, masks and optimisers that only see the likelihood", "why_tests_cant": "tests use a few points with fixed axes; a sign or an index exchanged in the blocks of derivatives shows as dependence on the axes only for general directions", "anchors": ["catlearn/regression/gaussian_process.py: GaussianProcess", "catlearn/regression/gpfunctions/kernels.py: gaussian_xx_gradients", "catlearn/regression/gpfunctions/kernels.py: gaussian_xxp_gradients", "catlearn/optimize/mlneb.py: train_gp_model"]}
{"id": "C271", "title": "The forces on the surrogate are the forces of its energy", "statement": "The forces that ASECalc reports for a structure with a Gaussian process trained by MLMin or MLNEB are minus the derivatives of the energy it reports, with respect to each Cartesian coordinate, up to an error of at most a constant times the square of the finite step; they are zero for coordinates that the constraints remove, on which the energy does not depend. The call does not raise for masks of distinct coordinates of the structure.", "quantifier": "all trained surrogates, kernels and data, all structures, masks and steps up to one", "why_tests_cant": "a comparison at a few points and one step does not tell a second order error from a wrong derivative, nor that no coordinate is ever shifted by the mask", "anchors": ["catlearn/optimize/mlneb.py: ASECalc.calculate", "catlearn/optimize/mlneb.py: train_gp_model", "catlearn/optimize/mlmin.py: MLMin.run"]}
{"id": "C272", "title": "Optimising the hyperparameters does not lower the likelihood, and the likelihood reported is that of the model", "statement": "When the minimiser that optimize_hyperparameters calls does not end above the value it started from, the call succeeds, the log marginal likelihood of the model afterwards is not below the one before, and it is the logarithm of the density of the training targets under the prior of the new kernels and regularisation; data and options of the model stay. This holds with and without data scaling and for each loss function.", "quantifier": "all training data, kernels that can be written to a list and back, regularisations, and minimisers", "why_tests_cant": "a test sees one minimisation; that the reported value and the new kernels belong together for every outcome of the minimiser, and for each loss, is a statement about all of them", "anchors": ["catlearn/regression/gaussian_process.py: GaussianProcess.optimize_hyperparameters", "catlearn/regression/gpfunctions/log_marginal_likelihood.py: log_marginal_likelihood", "catlearn/regression/cost_function.py: _cost_function"]}
{"id": "C273", "title": "A parameter that was entered can be referred to", "statement": "After parameter_entry the parameter can be found by its symbol: get_parameters and fingerprint_entry give it the same number, which no other symbol has and which is a new one for a new symbol. Without a symbol, the number as a string is the symbol. Numbers of earlier symbols, images and stored values do not change.", "quantifier": "all databases and symbols, given or not", "why_tests_cant": "whether the automatic symbol is free depends on all the symbols entered before", "anchors": ["catlearn/utilities/database_functions.py: FingerprintDB.parameter_entry", "catlearn/utilities/database_functions.py: FingerprintDB.get_parameters"]}
{"id": "C274", "title": "Far from its data a Gaussian process knows nothing", "statement": "For kernels that fade with distance (Gaussian, Laplacian and sqe, added or multiplied, with or without noise), the prediction at points that go away from the data in the features of each kernel tends to zero, with scale_data to the mean of the training targets; the uncertainty never exceeds that of the prior and tends to it, in the units of the targets.", "quantifier": "all data, kernels with positive widths, histories of updates, and all ways of going away", "why_tests_cant": "a limit: every finite set of test points leaves open what happens further away", "anchors": ["catlearn/regression/gaussian_process.py: GaussianProcess.predict", "catlearn/regression/gpfunctions/covariance.py: get_covariance", "catlearn/regression/gpfunctions/kernels.py"]}
{"id": "C275", "title": "Predictions and uncertainties are continuous in the features", "statement": "The prediction of a Gaussian process and its uncertainties, with and without regularisation, are continuous functions of the features of the test point, for every kernel.", "quantifier": "all data, kernels and histories of updates, at all points including the training data", "why_tests_cant": "continuity is a statement about all neighbours of all points; the diagonal of a covariance of data with itself is computed in another way than that of different points", "anchors": ["catlearn/regression/gaussian_process.py: GaussianProcess.predict", "catlearn/regression/gpfunctions/kernels.py", "catlearn/regression/gpfunctions/uncertainty.py"]}
{"id": "C276", "title": "Repeated measurements are averages with less noise", "statement": "When every point was measured m times and a Gaussian process without noise kernels is trained on all the measurements (unscaled data), it gives the same predictions and the same uncertainties as the model that is trained once on every point with the mean of its measurements and the regularization divided by the square root of m; and that second model can be built whenever the first can.", "quantifier": "all numbers of repeats, numbers of points and features, training points, measured targets, kernels without noise_multi, regularisations (plain or logarithmic) and test points", "why_tests_cant": "A test compares two models for one list of numbers up to rounding; the relation is about the inverses of two covariance matrices of different size, for every kernel and every number of repeats.", "anchors": ["catlearn/regression/gaussian_process.py: GaussianProcess.__init__", "catlearn/regression/gaussian_process.py: GaussianProcess.predict", "catlearn/regression/gpfunctions/covariance.py: get_covariance"]}
{"id": "C277", "title": "Ridge regression of repeated, redundant and irrelevant data", "statement": "RR of data in which every point is measured m times gives the coefficients of RR of the averaged targets with omega2/m; a data point that the model already predicts exactly does not change the coefficients; features with equal values get equal coefficients (and, without a prior, a feature that is c times another gets c times its coefficient); a feature that is zero for all data gets the prior as coefficient and leaves the others as they are without it; coefficients of a sum of targets and priors are the sums of the coefficients; targets given exactly by the prior are fitted exactly.", "quantifier": "every data set, targets, prior, omega2 > 0 and number of repetitions", "why_tests_cant": "relates the result of two fits for all data; a test compares one fit with numbers", "anchors": ["catlearn/regression/ridge_regression.py: RidgeRegression.RR, predict"]}
{"id": "C278", "title": "More regularisation fits the training data less and keeps coefficients closer to the prior", "statement": "For 0 < v <= w the sum of squared training errors of RR with omega2 = v is at most that with omega2 = w, and the coefficients with omega2 = w are at most as far from the prior as those with v; omega2 times the squared distance to the prior is at most the sum of squared errors of the prior, and every coefficient tends to the prior as omega2 grows.", "quantifier": "every data set, targets, prior and pair of regularisations", "why_tests_cant": "monotonicity and a limit over all positive regularisations; tests use a few values", "anchors": ["catlearn/regression/ridge_regression.py: RidgeRegression.RR, predict"]}
{"id": "C279", "title": "What one more measurement changes in a Gaussian process", "statement": "Let m and u be the prediction and uncertainty at x of a Gaussian process without data scaling and s the square of its regularisation. A process with the same kernels and one more measurement y at x predicts (s*m + u^2*y)/(u^2 + s) at x, the mean weighted with the inverse variances, with variance u^2*s/(u^2 + s); at any point z its variance is not larger, and the squared change of the prediction is the reduction of the variance times (y - m)^2/(u^2 + s). A measurement equal to the prediction changes no prediction, the changes are proportional to y - m, and the uncertainties do not depend on y.", "quantifier": "every training set, kernels without per-point noise, regularisation, new point and measured value, and every point of prediction", "why_tests_cant": "relates two models for every data set and every query; a test compares a few predictions with stored numbers", "anchors": ["catlearn/regression/gaussian_process.py: GaussianProcess.__init__, predict", "catlearn/regression/gpfunctions/uncertainty.py: get_uncertainty"]}
{"id": "C280", "title": "The likelihood is the product of the densities of the measurements around what was predicted before them", "statement": "The log marginal likelihood of a Gaussian process with one more measurement y at x is that of the process without it plus the logarithm of the normal density of y with the predicted mean at x and the predicted variance plus the square of the regularisation; over any sequence of further measurements it grows by the sum of these logarithms, each with the prediction of the model before. Of two possible measurements at x the one nearer to the prediction gives the larger likelihood.", "quantifier": "every training set, kernels without per-point noise, regularisation and sequence of further measurements", "why_tests_cant": "an identity between likelihoods of all sizes of data; tests look at the likelihood of one model", "anchors": ["catlearn/regression/gaussian_process.py: GaussianProcess.__init__, predict, _update_lml", "catlearn/regression/gpfunctions/log_marginal_likelihood.py: log_marginal_likelihood"]}
{"id": "C281", "title": "What the regularisation of a Gaussian process does", "statement": "Of two Gaussian processes of the same data and kernels, without data scaling, the one with the larger regularisation has the larger (or the same) sum of squared errors on the training data and the larger (or the same) uncertainty at every point; the sum of squared predictions at the training points is at most that of the targets; at the training points the uncertainty is at most the regularisation; as the regularisation grows every prediction tends to zero and every variance to the one without data.", "quantifier": "every training set, kernels without per-point noise, pair of regularisations and point of prediction", "why_tests_cant": "monotonicity and a limit over all regularisations and data sets; tests use one value", "anchors": ["catlearn/regression/gaussian_process.py: GaussianProcess.__init__, predict", "catlearn/regression/gpfunctions/covariance.py: get_covariance", "catlearn/regression/gpfunctions/uncertainty.py: get_uncertainty"]}
{"id": "C282", "title": "The order of the training data is immaterial to a model of values and gradients", "statement": "A GaussianProcess made with gradients of the same points with their targets and gradients in another order makes the same predictions and reports the same uncertainties at every new point, with and without scale_data; data for which the model cannot be made raise the same exception in every order.", "quantifier": "for all lists of points with targets and gradients, all their permutations, all kernel lists, regularisations, scaling flags and new points", "why_tests_cant": "Tests use one order of the data; a mix-up between the block of values and the block of gradients shows only for some orders.", "anchors": ["catlearn/regression/gaussian_process.py: update_data", "catlearn/regression/gaussian_process.py: predict", "catlearn/regression/gpfunctions/covariance.py: get_covariance", "catlearn/regression/gpfunctions/uncertainty.py: get_uncertainty"]}
{"id": "C283", "title": "Further points with gradients never increase the uncertainty", "statement": "Of two GaussianProcess models made with gradients and without scale_data, with the same kernels and regularisation, one of which has further training points with gradients besides those of the other, in any order, that one reports uncertainties that are never larger, whatever the targets and gradients are.", "quantifier": "for all training data, further data, kernel lists, regularisations and new points at which the uncertainty is a number", "why_tests_cant": "A statement about all pairs of data sets of any size.", "anchors": ["catlearn/regression/gaussian_process.py: update_data", "catlearn/regression/gaussian_process.py: predict", "catlearn/regression/gpfunctions/uncertainty.py: get_uncertainty", "catlearn/regression/gpfunctions/kernels.py: gaussian_kernel"]}
{"id": "C284", "title": "Predictions of a model of values and gradients are linear in values and gradients", "statement": "Without scale_data the predictions of GaussianProcess models made with gradients are linear in the training targets and gradients: the model of a combination of two sets of targets and gradients at the same points can be made if theirs can, its predictions are the same combination of theirs, and the uncertainties of all three agree. Whether a model can be made does not depend on the values of targets and gradients.", "quantifier": "for all training points, pairs of targets and gradients, coefficients, kernel lists, regularisations and new points", "why_tests_cant": "Linearity is a relation between infinitely many models; tests look at one set of targets.", "anchors": ["catlearn/regression/gaussian_process.py: update_data", "catlearn/regression/gaussian_process.py: predict", "catlearn/regression/gaussian_process.py: _make_prediction"]}
{"id": "C285", "title": "A model of values and gradients far from its data", "statement": "Far from the training data the prediction of a GaussianProcess made with gradients tends to one value, the same in all directions, for Gaussian, noise and constant kernels in any combination of sums and products. With Gaussian and noise kernels only this value is zero, or with scale_data the mean of the training targets, and the uncertainty tends to the standard deviation of the prior, which it never exceeds.", "quantifier": "for all training data, kernel lists without the linear kernel, regularisations, scaling flags and all ways of going to infinity", "why_tests_cant": "Tests evaluate finitely many points; the limit concerns all directions.", "anchors": ["catlearn/regression/gaussian_process.py: predict", "catlearn/regression/gpfunctions/kernels.py: gaussian_xxp_gradients", "catlearn/regression/gpfunctions/covariance.py: get_covariance", "catlearn/regression/gpfunctions/uncertainty.py: get_uncertainty"]}
{"id": "C286", "title": "A point that a model of values and gradients predicts correctly teaches it nothing", "statement": "For a GaussianProcess made with gradients, without scale_data and with Gaussian and constant kernels that are added, predictions have a slope at every point in every direction. If a further training point has the target and the gradient that the model already predicts there, the model made with this point besides the others makes the same predictions everywhere, with and without regularisation.", "quantifier": "for all training data, sums of Gaussian and constant kernels, regularisations, further points and new points", "why_tests_cant": "The new model is the result of inverting another, larger matrix; agreement at all points cannot be tested.", "anchors": ["catlearn/regression/gaussian_process.py: update_data", "catlearn/regression/gaussian_process.py: predict", "catlearn/regression/gpfunctions/kernels.py: gaussian_xx_gradients", "catlearn/regression/gpfunctions/kernels.py: gaussian_xxp_gradients"]}
{"id": "C287", "title": "Features with very large widths or with the same value everywhere do not influence a Gaussian process", "statement": "For kernels with one width per feature (gaussian, laplacian, sqe; constants and noise beside them): as the widths of some features grow, predictions and uncertainties tend to those of the model whose kernels leave these features out of \"features\"; and if some features have the same value in all training and test points, predictions and uncertainties are exactly those of the model that leaves them out. Both hold with and without scaling of the data and with hyperparameters on a log scale.", "quantifier": "all training data, all such lists of kernels with positive widths, all regularisations with which the models can be built, all sets of features that leave a feature to every kernel, all test points; limits of the widths", "why_tests_cant": "the first part is a limit over all widths and both relate two models on all data; tests compare a few predictions at a few widths up to a tolerance", "anchors": ["catlearn/regression/gaussian_process.py: GaussianProcess.predict", "catlearn/regression/gpfunctions/kernels.py: gaussian_kernel", "catlearn/regression/gpfunctions/covariance.py: get_covariance"]}
{"id": "C288", "title": "Voronoi fingerprints belong to the structures in their order", "statement": "VoronoiFingerprintGenerator(atoms).generate() returns a table whose row k holds the fingerprint of atoms[k]. Each structure is handed to Magpie in a file of its own, also if formulas repeat; the order in which Magpie writes its rows does not matter; nothing that an earlier calculation left in the directory is used, and if Magpie cannot be run an EnvironmentError is raised. With delete_temp the directory is gone after a success.", "quantifier": "all lists of structures, all formulas, all orders of the rows written by Magpie, all former contents of the directory", "why_tests_cant": "The row of a structure passes through a file named after its position and a join on a column of an external program; that no two names clash and that any order of the rows is put right concerns all lists of structures and all orders.", "anchors": ["catlearn/fingerprint/voro.py: VoronoiFingerprintGenerator.write_voro_input", "catlearn/fingerprint/voro.py: VoronoiFingerprintGenerator.generate"]}
{"id": "C289", "title": "Prototype fingerprints describe the elements on the sites", "statement": "PrototypeFingerprintGenerator(atoms, PrototypeSites(site_dict), properties=...).generate_all() returns for each structure, in order, its number, its formula with the elements of the sites in the alphabetical order of the sites, its properties (empty where it has none) and the fingerprint Magpie computed for it; site-info.txt has the lines in the same order. A site that is not among the properties and a structure without the element of a site are refused. The defaults of the classes can be used.", "quantifier": "all dictionaries of sites, lists of properties, lists of structures and orders of the rows written by Magpie", "why_tests_cant": "Order of sites, formula, description of the sites and join with the external table must fit for all dictionaries and lists; tests would need the external program.", "anchors": ["catlearn/fingerprint/prototype.py: PrototypeSites", "catlearn/fingerprint/prototype.py: PrototypeFingerprintGenerator.write_proto_input", "catlearn/fingerprint/prototype.py: PrototypeFingerprintGenerator.generate_all"]}
{"id": "C290", "title": "Expected improvement, probability of improvement and probability density fit together", "statement": "EI, PI and probability_density of one candidate belong to one normal distribution: the slope of EI in the prediction is PI (with the sign of the objective) and its slope in the uncertainty is the uncertainty times the probability density; EI lies between the predicted improvement (zero if none) and that plus 0.399 times the uncertainty; as the uncertainty vanishes EI tends to the predicted improvement and PI to one or zero, as it grows PI tends to one half; a larger uncertainty raises the PI of a candidate predicted to be worse and lowers that of one predicted to be better; PI for max and for min add up to one. Candidates without uncertainty get the limits as scores.", "quantifier": "all best values, predictions and uncertainties; limits of the uncertainty", "why_tests_cant": "Slopes and limits concern all real predictions and uncertainties; tests compare single values.", "anchors": ["catlearn/active_learning/acquisition_functions.py: EI", "catlearn/active_learning/acquisition_functions.py: PI", "catlearn/active_learning/acquisition_functions.py: probability_density"]}
{"id": "C291", "title": "How much predictions and uncertainties can change from one point to another", "statement": "For a Gaussian process without data scaling the uncertainties at two points differ by at most the distance of the points as the kernels see it (the root of k(x,x) - 2k(x,z) + k(z,z)), and the predictions by at most this distance times a factor that depends on the training data only and whose square is at most the sum of the squared targets divided by the square of the regularisation. With one Gaussian kernel the distance is at most the root of its scaling times the distance in units of the widths: the model cannot change faster than its widths allow.", "quantifier": "all training data, kernels without noise kernel, regularisations, hyperparameters on either scale, all pairs of points", "why_tests_cant": "The bound holds for all pairs of points and all data at once; tests compare single points.", "anchors": ["catlearn/regression/gaussian_process.py: GaussianProcess.predict", "catlearn/regression/gpfunctions/uncertainty.py: get_uncertainty", "catlearn/regression/gpfunctions/kernels.py: gaussian_kernel"]}
{"id": "C292", "title": "What the regularisation does to a model of values and gradients", "statement": "Of two GaussianProcess models made with the same points, targets and gradients, without scale_data, the one with the larger regularisation is not closer to its training data (sum of squared errors of the predicted values and of the slopes of the predictions at the training points) and not more certain at any point; at the training points the uncertainty is at most the regularisation. If the model without regularisation can be made, then with smaller and smaller regularisation r the sum of squared errors vanishes like the fourth power of r and the predictions at every point tend to those of the model without regularisation, with the square of r.", "quantifier": "all training data with gradients, Gaussian and constant kernels that are added (for uncertainties and limits of predictions: all kernels with a positive semidefinite covariance), all regularisations and points", "why_tests_cant": "Monotonicity and rates hold for all pairs of regularisations and all data; tests try a few values.", "anchors": ["catlearn/regression/gaussian_process.py: GaussianProcess.__init__", "catlearn/regression/gaussian_process.py: GaussianProcess.predict", "catlearn/regression/gpfunctions/covariance.py: get_covariance", "catlearn/regression/gpfunctions/uncertainty.py: get_uncertainty"]}
{"id": "C293", "title": "Structures that were evaluated are certain for the surrogate of MLNEB, and none is more certain than the noise", "statement": "The uncertainty that MLNEB reports for an image (twice that of its surrogate) is nowhere below 0.002, twice the lower bound of the noise of the energies, and at an image that was evaluated (or has the same free coordinates) at most 0.0142. Hence with unc_convergence above 0.0142 (default 0.05) the uncertainty is no obstacle once all interior images were evaluated: a pass reports convergence exactly if the largest force is at most fmax and the path has all its images. With unc_convergence of at most 0.002 no run ever reports convergence.", "quantifier": "all data, masks, path lengths, all minimisers of the hyperparameters that keep the bounds of the code, all positions, all runs", "why_tests_cant": "The bounds hold for every training set and every result of the optimisation of hyperparameters; runs in tests show single cases.", "anchors": ["catlearn/optimize/mlneb.py: train_gp_model", "catlearn/optimize/mlneb.py: get_results_predicted_path", "catlearn/optimize/mlneb.py: MLNEB.run"]}
{"id": "C294", "title": "The name of a composition tells the composition and a composition has one name", "statement": "composition_name(atoms), stored for every site as material and defect: two structures with the same name have the same number of atoms of every element, so the name of a structure with a vacancy is never that of the structure without it; two structures with the same number of atoms of every element have the same name, in this run of Python and in any other.", "quantifier": "all lists of chemical symbols and all orders in which Python may list a set of strings", "why_tests_cant": "That no two compositions share a name concerns all pairs of compositions, and the order of a set of strings changes from one run of Python to the next.", "anchors": ["catlearn/featurize/site_stability.py: composition_name", "catlearn/featurize/slab_utilities.py: stoichiometry"]}
{"id": "C295", "title": "The energy of every reference file is found under the symbols of its atoms", "statement": "traj_to_reference_dict(folder) returns a dictionary exactly if every file whose name ends with traj or json can be read; other files are not read. The energy in each of these files stands in it under the text of its symbols; under any other text there is nothing, and files whose symbols differ, in kind or in order, have different keys.", "quantifier": "all folders, orders of listing, names and contents of the files", "why_tests_cant": "Collisions of keys depend on the combination of files and on the order in which the system lists them.", "anchors": ["catlearn/featurize/site_stability.py: traj_to_reference_dict"]}
{"id": "C296", "title": "How much a model of values and gradients can change from one structure to another", "statement": "For a GaussianProcess made with gradients and without scale_data, the uncertainties at two points differ by at most the distance of the points as the kernels see it, and the predictions by at most this distance times a factor that depends on the training data only and whose square is at most the sum of the squared targets and gradients divided by the square of the regularisation; with one Gaussian kernel the distance is at most the root of the scaling times the distance in units of the widths. For the surrogate of MLNEB the uncertainty changes by at most 10 times the root of 0.001 plus the variance of the energies per unit of distance of the free coordinates, so that the uncertainty of a structure is at most 0.0071 plus this times the distance to any evaluated structure.", "quantifier": "all training data with gradients, kernels with a positive semidefinite covariance, regularisations, pairs of points; all results of the optimisation of hyperparameters that keep the bounds of the code", "why_tests_cant": "The bound holds for all pairs of points and all data at once; tests compare single points.", "anchors": ["catlearn/regression/gaussian_process.py: GaussianProcess.predict", "catlearn/regression/gpfunctions/uncertainty.py: get_uncertainty", "catlearn/optimize/mlneb.py: train_gp_model", "catlearn/optimize/mlneb.py: get_results_predicted_path"]}
{"id": "C297", "title": "Repeated values and gradients are averages with less noise", "statement": "A GaussianProcess made with gradients, without scale_data and without noise_multi, in whose data every point occurs m times, each time with a value and a gradient of its own, can be made only if the one of the averaged values and gradients with the regularisation divided by the root of m can be made, and gives the same predictions and the same uncertainties as that one.", "quantifier": "all points, numbers of repetitions, values, gradients, kernels, regularisations and test points", "why_tests_cant": "The identity relates two models for all data, numbers of repetitions and test points; tests compare single predictions.", "anchors": ["catlearn/regression/gaussian_process.py: GaussianProcess.__init__", "catlearn/regression/gaussian_process.py: GaussianProcess.predict", "catlearn/regression/gpfunctions/covariance.py: get_covariance"]}
{"id": "C298", "title": "Units of a model of values and gradients do not matter if everything is converted", "statement": "A GaussianProcess trained on values and gradients without scale_data, whose features, gradients, targets and hyperparameters (widths, scalings, noise, regularisation) are all expressed in other units of length and of value, gives the same predictions and uncertainties, expressed in the new units.", "quantifier": "all training data, lists of kernels that are added, test points, and all positive factors of length and value", "why_tests_cant": "equality of two models for all data and all units; a test runs with one unit of length", "anchors": ["catlearn/regression/gaussian_process.py: GaussianProcess.__init__, update_data, predict", "catlearn/regression/gpfunctions/covariance.py: get_covariance", "catlearn/regression/gpfunctions/kernels.py: gaussian_xx_gradients, linear_kernel, constant_multi_kernel, noise_multi_kernel", "catlearn/regression/gpfunctions/uncertainty.py: get_uncertainty"]}
{"id": "C299", "title": "The order of the features is immaterial to a model of values and gradients", "statement": "A GaussianProcess trained on values and gradients whose features, components of the gradients and widths are given in another order is refused or made as before, and gives the same predictions, uncertainties and errors at points given in that order, with or without scale_data.", "quantifier": "all orders, training data, gradients, kernels, regularisations and test points", "why_tests_cant": "The equality concerns all orders and all data; a test compares a few.", "anchors": ["catlearn/regression/gaussian_process.py: GaussianProcess.__init__, update_data, predict", "catlearn/regression/gpfunctions/covariance.py: get_covariance", "catlearn/regression/gpfunctions/kernels.py: gaussian_xx_gradients, linear_kernel, constant_multi_kernel, noise_multi_kernel", "catlearn/regression/gpfunctions/uncertainty.py: get_uncertainty", "catlearn/regression/gpfunctions/default_scale.py: ScaleData"]}
{"id": "C300", "title": "Coordinates that never change can be left out of a model of values and gradients", "statement": "With Gaussian, constant and noise kernels, a GaussianProcess trained on values and gradients (without scale_data) with a coordinate that has the same value at all training points gives, at points with that value, the predictions and uncertainties of the one without that coordinate, whatever the slopes along it and its width: leaving out the constrained coordinates loses nothing.", "quantifier": "all training data, slopes along the coordinate, widths, values of the coordinate, regularisations and test points", "why_tests_cant": "Two models of different dimension agree for all data; tests compare no models with and without masked coordinates.", "anchors": ["catlearn/regression/gaussian_process.py: GaussianProcess.__init__, update_data, predict", "catlearn/regression/gpfunctions/covariance.py: get_covariance", "catlearn/regression/gpfunctions/kernels.py: gaussian_xx_gradients, noise_multi_kernel", "catlearn/optimize/constraints.py: apply_mask"]}
{"id": "C301", "title": "The amplitude of the covariance of values and gradients does not change predictions", "statement": "A GaussianProcess trained on values and gradients, with or without scale_data, whose covariance is e^2 times as large (all kernels that are added) and whose regularisation is e times as large, is refused or made as before, gives the same predictions and errors, and uncertainties that are e times as large.", "quantifier": "all training data, gradients, kernels (added or multiplied), regularisations, test points and all e > 0", "why_tests_cant": "The equality concerns all data and factors; a test compares two models.", "anchors": ["catlearn/regression/gaussian_process.py: GaussianProcess.__init__, update_data, predict", "catlearn/regression/gpfunctions/covariance.py: get_covariance", "catlearn/regression/gpfunctions/uncertainty.py: get_uncertainty"]}
{"id": "C302", "title": "Gradients that are known only roughly do not influence the model", "statement": "For a GaussianProcess trained on values and gradients, without scale_data, whose last kernel is noise_multi: as the noise on gradients grows, the prediction and the uncertainty at every test point tend to those of the GaussianProcess with the same kernels and regularisation that is trained on the values alone.", "quantifier": "all training data, gradients, gaussian and constant kernels (added or multiplied), scalings of the noise > 0, noises of values, regularisations and test points for which the models are made", "why_tests_cant": "A limit over all noises and the comparison of two kinds of models for all data.", "anchors": ["catlearn/regression/gaussian_process.py: GaussianProcess.__init__, update_data, predict", "catlearn/regression/gpfunctions/kernels.py: noise_multi_kernel", "catlearn/regression/gpfunctions/uncertainty.py: get_uncertainty"]}
{"id": "C303", "title": "A training point far from all others does not influence predictions", "statement": "If a GaussianProcess whose kernels vanish for distant points is trained with a further point, then as this point moves away from all others, with any bounded target, the prediction and the uncertainty at every test point tend to those of the GaussianProcess trained without the point.", "quantifier": "all training data, gaussian, laplacian and sqe kernels (added or multiplied, on a log scale or not, of some or all features), regularisations, paths of the far point, bounded targets and test points; with and without scale_data", "why_tests_cant": "A limit over all positions of a training point, for all data.", "anchors": ["catlearn/regression/gaussian_process.py: GaussianProcess.__init__, update_data, predict", "catlearn/regression/gpfunctions/kernels.py: gaussian_kernel, laplacian_kernel, sqe_kernel", "catlearn/regression/gpfunctions/default_scale.py: ScaleData"]}
{"id": "C304", "title": "Errors of the targets of a Gaussian process are not amplified", "statement": "Of two Gaussian processes that differ in their targets only, the predictions at the training points differ, in the sum of squares, by at most as much as the targets do. At every point the uncertainties are the same, and the squared difference of the predictions times the square of the regularisation is at most the sum of the squared differences of the targets times the variance that the data has taken away at the point. When only one target is changed the prediction at its point moves the same way by at most the same amount.", "quantifier": "For all training data, pairs of targets, kernel lists with valid hyperparameters, regularisations and test points.", "why_tests_cant": "A test compares two sets of targets; the bound is about the largest eigenvalue of the matrix from targets to predictions, for all data.", "anchors": ["catlearn/regression/gaussian_process.py: GaussianProcess.predict", "catlearn/regression/gpfunctions/covariance.py: get_covariance"]}
{"id": "C305", "title": "Errors of the targets of ridge regression are not amplified", "statement": "Of two calls of RR that differ in the targets only, the sum of the squared differences of the predictions of the training data plus twice omega2 times the sum of the squared differences of the coefficients is at most the sum of the squared differences of the targets. When only one target is changed the prediction of its data point moves the same way by at most the same amount.", "quantifier": "For all data, pairs of targets, priors and omega2 > 0.", "why_tests_cant": "A test compares two sets of targets; the bound holds in the worst direction of the error, which a test does not know.", "anchors": ["catlearn/regression/ridge_regression.py: RidgeRegression.RR", "catlearn/regression/ridge_regression.py: RidgeRegression.predict"]}
{"id": "C306", "title": "Penalties of more data, in other coordinates and at other points", "statement": "With more training data penalty_close never returns a smaller and penalty_far never a larger penalty; the order of the training data and repeated points are immaterial. In other units, axes or origins of the features (any map that multiplies all distances by b, the critical distance included) the penalties are b^2 times as large. If the critical distance of penalty_close is at most that of penalty_far no point gets both penalties. The roots of the penalties of two points differ by at most the root of the constant times the distance of the points.", "quantifier": "For all training and test points, constants and critical distances.", "why_tests_cant": "Relations between calls with different data or coordinates, for all points.", "anchors": ["catlearn/utilities/penalty_functions.py: PenaltyFunctions.penalty_close", "catlearn/utilities/penalty_functions.py: PenaltyFunctions.penalty_far"]}
{"id": "C307", "title": "Errors of values and gradients are not amplified", "statement": "Of two GaussianProcess models made with gradients, without scale_data and without noise_multi, that differ in the values and gradients of the training data only, the values and gradients they predict for the training data (train_prediction) differ, in the sum of squares, by at most as much as those given do. At every point the uncertainties are the same, and the squared difference of the predictions times the square of the regularisation is at most the sum of the squared differences of values and gradients given times the variance that the data has taken away at the point.", "quantifier": "For all training points, pairs of values and gradients, kernels, regularisations and test points.", "why_tests_cant": "The bound holds for the worst direction of the error in the space of all values and gradients; a test tries one.", "anchors": ["catlearn/regression/gaussian_process.py: GaussianProcess.predict", "catlearn/regression/gpfunctions/covariance.py: get_covariance"]}
{"id": "C308", "title": "The test potentials have the minima they are known for", "statement": "Rosenbrock: the energy is never negative, it is zero at (1, 1) only, and all forces vanish there only. Himmelblau: the energy is never negative and is zero exactly where x^2 + y = 11 and x + y^2 = 7, for instance at (3, 2), and all forces vanish there. GoldsteinPrice: the lowest energy is 0.03, reached at (0, -1) only, and all forces vanish exactly at the nine points where x + y is -1, 1 or 2 and 2x - 3y is 0, 1 or 3. MultiModal: the energy lies between -122.5 and 0. MullerBrown with its default parameters: the energy is above -4.7.", "quantifier": "for all numbers of atoms and all positions", "why_tests_cant": "The statements are about all points of the plane, and uniqueness of a minimum or of a stationary point cannot be sampled.", "anchors": ["catlearn/optimize/functions_calc.py: Rosenbrock", "catlearn/optimize/functions_calc.py: Himmelblau", "catlearn/optimize/functions_calc.py: GoldsteinPrice", "catlearn/optimize/functions_calc.py: MultiModal", "catlearn/optimize/functions_calc.py: MullerBrown"]}
{"id": "C309", "title": "How large the log marginal likelihood can be, and what it does with the unit of the targets", "statement": "The log marginal likelihood of a Gaussian process with n training points and regularisation r (its exponential on a log scale) is at most -n/2*log(2*pi*r^2), whatever the kernels, features and targets are, with and without data scaling; so the loss that optimize_hyperparameters minimises is bounded below while the regularisation is bounded below, and there are models that reach the bound. Multiplying all targets by a number of magnitude at least one never increases the likelihood. With targets and regularisation c times and a covariance c^2 times as large the log marginal likelihood changes by -n*log(c), which does not depend on the kernels, so that kernels are compared alike in all units.", "quantifier": "for all training data, kernels with valid hyperparameters, regularisations that are not zero, and factors", "why_tests_cant": "The bound is over all kernels and data; a test can only try some.", "anchors": ["catlearn/regression/gaussian_process.py: GaussianProcess._update_lml", "catlearn/regression/gpfunctions/log_marginal_likelihood.py: log_marginal_likelihood"]}
{"id": "C310", "title": "Errors of ridge regression when a point is left out are not smaller than training errors", "statement": "The prediction of RR for a training point lies between its target and what RR of the other points predicts for it, so that the error of a point that is left out is at least its training error; the leave-one-out estimate that find_optimal_regularization uses is at least the root mean squared training error, and when it is zero all points are fitted exactly and leaving any point out does not change the coefficients.", "quantifier": "for all data, priors and positive regularisations", "why_tests_cant": "Each statement is about all data sets; a counterexample would be a rare configuration of the data.", "anchors": ["catlearn/regression/ridge_regression.py: RidgeRegression.RR", "catlearn/regression/ridge_regression.py: RidgeRegression._LOOCV"]}
{"id": "C311", "title": "The effective number of parameters is at most the number of data and falls with the regularisation", "statement": "The effective number of parameters that RR returns does not depend on targets and prior, is at most the number of data points and smaller than the number of features, never grows when the regularisation grows, tends to zero as the regularisation grows without bound, and is zero when all features are zero.", "quantifier": "for all data, priors and positive regularisations", "why_tests_cant": "Monotonicity and the bound by the number of data are statements about all matrices and all regularisations.", "anchors": ["catlearn/regression/ridge_regression.py: RidgeRegression.RR"]}
{"id": "C312", "title": "Error statistics in other units, of parts of the data, and against a third set of values", "statement": "Converting predictions and targets to another unit and zero (x to c*x + b with c >= 0) multiplies every residual, mean, median, percentile and root mean squared error of get_error by c, and raises in the same cases. The errors of two parts of the data add up, weighted with the numbers of data, to the error of all the data (squares of the root mean squared errors), so that the error of the whole lies between the errors of the parts. The mean absolute error of p against t is at most that of p against q plus that of q against t.", "quantifier": "for all lists of predictions and targets", "why_tests_cant": "The relations are between calls on related data, for all data.", "anchors": ["catlearn/regression/cost_function.py: get_error"]}
{"id": "C313", "title": "The error of a Gaussian process at a training point that is left out", "statement": "For a GaussianProcess without gradients, data scaling and noise_multi, the prediction at a training point, wherever it is in the data, lies between its target and what the model of the other points predicts there. Its training error is therefore at most the error when it is left out, and its uncertainty is at most the one when it is left out and smaller than the regularisation. Error and uncertainty of the model without the point follow from those of the model with it: the error is divided by 1 - u^2/r^2, and so is the variance, where u is the uncertainty at the point and r the regularisation.", "quantifier": "for all training data, positions of the point, kernels with valid hyperparameters and regularisations that are not zero", "why_tests_cant": "It relates two models for every data set and every point of it; a test tries some.", "anchors": ["catlearn/regression/gaussian_process.py: GaussianProcess.predict", "catlearn/regression/gaussian_process.py: GaussianProcess.update_data"]}
{"id": "C314", "title": "The error of a model of values and gradients at a training point that is left out", "statement": "For a GaussianProcess made with gradients, with a sum of gaussian and constant kernels, without scale_data, take a training point, wherever it is in the data, and the model of the other points. At the point, predicted value and slopes of the model of all data have gone from those of the model of the others towards the value and gradient given and not past them: the step and what is left make no obtuse angle. In the sum of squares of value and gradient, the training error at the point is therefore at most the error when the point is left out, and so is the step.", "quantifier": "for all training data, positions of the point, kernels with valid hyperparameters and regularisations that are not zero", "why_tests_cant": "It relates two models for every data set and every point of it; a test tries some.", "anchors": ["catlearn/regression/gaussian_process.py: GaussianProcess.predict", "catlearn/regression/gpfunctions/covariance.py: get_covariance"]}
{"id": "C315", "title": "A larger kappa explores more", "statement": "When kappa is raised, the candidate that the UCB metric of rank puts first is at least as uncertain as before and its prediction is no better for the objective. With kappa zero the candidate with the best prediction comes first, and when kappa is large enough a candidate that is more uncertain than all others does.", "quantifier": "every list of candidates, both objectives and all pairs of values of kappa that are not negative", "why_tests_cant": "An exchange argument over all lists of candidates and all kappa; tests look at single scores.", "anchors": ["catlearn/active_learning/acquisition_functions.py: UCB", "catlearn/active_learning/acquisition_functions.py: rank"]}
{"id": "C316", "title": "A Gaussian process with a constant kernel only predicts the shrunken mean of the targets", "statement": "A GaussianProcess without gradients and data scaling whose only kernel is constant predicts the same value at every point, whatever the features are: the sum of the targets times C/(n*C + r^2), where n is the number of training points, C the constant times its scaling and r the regularisation, so that the prediction is the mean of the targets times a factor between zero and one, which does not fall when C grows. The uncertainty is the same everywhere too, the root of C*r^2/(n*C + r^2).", "quantifier": "for all training data, constants and scalings that are not negative, regularisations that are not zero, and test points", "why_tests_cant": "It is a closed form for all data sets and hyperparameters; a test evaluates one.", "anchors": ["catlearn/regression/gaussian_process.py: GaussianProcess.predict", "catlearn/regression/gpfunctions/kernels.py: constant_kernel"]}
{"id": "C317", "title": "A linear and a constant kernel are ridge regression with an intercept", "statement": "A GaussianProcess without gradients and data scaling, with a linear kernel of scaling s, a constant kernel c and the regularisation r, predicts a linear function of the features with an intercept: the coefficients are those that RR returns, with the regularisation r^2, for the features times the root of s with a further column that holds the root of c everywhere; the coefficient of this column times the root of c is the intercept.", "quantifier": "for all training data, scalings and constants that are not negative, regularisations that are not zero, and test points", "why_tests_cant": "It equates two independently written methods for all data.", "anchors": ["catlearn/regression/gaussian_process.py: GaussianProcess.predict", "catlearn/regression/gpfunctions/kernels.py: linear_kernel", "catlearn/regression/gpfunctions/kernels.py: constant_kernel", "catlearn/regression/ridge_regression.py: RidgeRegression.RR"]}
{"id": "C318", "title": "A Gaussian process of one training point", "statement": "A GaussianProcess without gradients and data scaling, made from one training point with target y, with a gaussian kernel of scaling s and one width per feature and the regularisation r, predicts at a point z the value y*s*g/(s + r^2) with the variance s*(r^2 + s*(1 - g^2))/(s + r^2), where g is exp(-d/2) and d the sum of the squared differences of the features in units of the widths. So predictions lie between zero and the target, and of two points the one further from the training point has the prediction nearer to zero and no smaller an uncertainty, which stays at most the root of s.", "quantifier": "for all training points, targets, widths, scalings, regularisations that are not zero and test points", "why_tests_cant": "It is a closed form, and a monotonicity over all pairs of points.", "anchors": ["catlearn/regression/gaussian_process.py: GaussianProcess.predict", "catlearn/regression/gpfunctions/kernels.py: gaussian_kernel"]}
{"id": "C319", "title": "Lists of kernels that stand for the same covariance", "statement": "Kernels that are added can be listed in any order; two of them that differ in the scaling only are one with the sum of the scalings; one with scaling zero can be left out; a constant factor at the end of the list scales all of them; a kernel marked as a factor multiplies what is listed before it and has no effect at the head of the list. In each case predictions and uncertainties are the same.", "quantifier": "all kernel lists, data, regularisations and test points", "why_tests_cant": "The covariance is accumulated kernel by kernel with two operations; lists, data and test points are unbounded, and a wrong start or operation gives another valid covariance that a test of shapes accepts.", "anchors": ["catlearn/regression/gpfunctions/covariance.py: get_covariance", "catlearn/regression/gaussian_process.py: GaussianProcess"]}
{"id": "C320", "title": "Lists of kernels that stand for the same covariance of values and gradients", "statement": "In a model of values and gradients, too, kernels that are added can be listed in any order, two of them that differ in the scaling only are one with the sum of the scalings, one with scaling zero can be left out, and a kernel marked as a factor has no effect at the head of the list. In each case predictions and uncertainties are the same.", "quantifier": "all kernel lists, data with gradients, regularisations and test points", "why_tests_cant": "The covariance of the training data, that of a new point with them and its variance are accumulated by separate calls; they have to agree for lists of any length and data of any size.", "anchors": ["catlearn/regression/gpfunctions/covariance.py: get_covariance", "catlearn/regression/gaussian_process.py: GaussianProcess"]}
{"id": "C321", "title": "A noise kernel is a regularisation that counts in the uncertainty", "statement": "A noise kernel at the end of the kernel list gives the predictions of the model without it whose squared regularisation is larger by the variance of the noise; at every point the variance is larger than that of this model by the variance of the noise. The same holds for a model of values and gradients if the noise of values and gradients is the same.", "quantifier": "all data, kernels, noise levels, regularisations and test points", "why_tests_cant": "The two ways to state the noise go through different code, the covariance of the training data, that with new points and the variance; equality for all data is not a matter of examples.", "anchors": ["catlearn/regression/gpfunctions/kernels.py: noise_multi_kernel", "catlearn/regression/gpfunctions/covariance.py: get_covariance", "catlearn/regression/gpfunctions/uncertainty.py: get_uncertainty"]}
