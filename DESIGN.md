# Formal model of CatLearn: design

The code in `/repo/catlearn` (Python) is modelled function by function in Lean 4
(`/verif/lean/Verif`).  Nothing of the code is run; the tie to the code is the citation
(file and lines) on each definition.

## Layout

* `Verif/Model/<Area>.lean` – the model.  Each definition cites the source it models and states
  every simplification.
* `Verif/Spec/<Area>.lean`  – small specifications, written without reference to the model's helpers
  (only where the property needs more than standard Mathlib notions such as `List.Perm`).
* `Verif/Lemmas/<Area>.lean` – helper lemmas.
* `Verif/Props/<Area>.lean` – the property theorems, named `Cnn_…`, each followed by an `example`
  showing that a concrete, non-trivial case meets its hypotheses.
* `properties.jsonl` – the English properties, `MANIFEST.json` – status and theorem names,
  `seeded/LOG.jsonl` – the wrong-program experiments.  `theorems_failed` are the declarations Lean rejected.
  `theorems_depending_on_failed` are the property theorems that use one of these, confirmed with the constants in Lean's
  environment.  Up to commit 76bb7a7 that field came from a search for names in the text, which confused declarations
  sharing a last component (`Holds.rows` and any other `.rows`); 178 of 1207 entries were wrong and are removed.  No
  edit had been counted as detected on their account.

## Modelling conventions

* Real arithmetic: numpy floating point is modelled by `ℝ` (or `ℚ`/`ℤ` where the value is only
  compared).  Rounding, overflow and NaN propagation are *not* modelled unless a definition says so
  (then NaN/inf is an explicit constructor or `Option`).
* Randomness: every random draw, shuffle or choice is an explicit argument, universally quantified.
  A shuffle is any `List.Perm` of its input.
* Parallelism: `pool.imap_unordered` yields any permutation of the list of worker results.
  `map_async(...).get()` / `map` yields the results in submission order (documented Python behaviour;
  trusted).
* Exceptions: a function that can raise returns `Except`/`Option`, or a theorem states the guard under
  which the code does not raise.
* Mutation through aliases: where the code mutates an argument in place the model returns the
  new value of that argument too.
* External libraries (sqlite, ASE, scikit-learn, scipy, numpy.linalg) are parameters with assumed
  behaviour, listed with the definition.
* When the code violates a property: the negation is proved with a concrete witness
  (`Cnn_…_violated`) and the largest true part is proved as `Cnn_…_partial`.

## Properties: what is modelled, how it is proved

The code column lists the functions of the code each property is about (all modelled, with the
simplifications stated at the definitions); `partial` means that the statement as written is false of
the code or that only a part of it was proved: the theorems ending in `_violated` show what is false, those
ending in `_partial` prove the rest.

| id | status | Lean module (`Props/`) | code | model and proof |
|---|---|---|---|---|
| C01 k-fold splitting loses and duplicates nothing | proved | KFold | cross_validation/k_fold_cv.py: k_fold | `k_fold` with the shuffle as a parameter (any permutation) and `np.array_split` as block sizes; permutation and size arithmetic on lists |
| C02 fixed-size k-fold has the requested size and stays disjoint | proved | KFold | cross_validation/k_fold_cv.py: k_fold | the `fix_size` branch of `k_fold`; list arithmetic, refusals as error values |
| C03 hierarchy subsets partition the data at every level | proved | Hierarchy | cross_validation/hierarchy_cv.py: Hierarchy.split_index | `split_index` as recursion over levels with every shuffle a parameter; induction over levels; the early `return None` is kept |
| C04 hierarchy learning curve tests every ordered pair of subsets once and never on its own training data | proved | Hierarchy | cross_validation/hierarchy_cv.py: Hierarchy.split_predict | the double loop of `split_predict`; counting of ordered pairs and disjointness of subsets |
| C05 fetching a subset from the hierarchy database returns exactly the requested rows | partial | Hierarchy | cross_validation/hierarchy_cv.py: Hierarchy._compile_split; cross_validation/hierarchy_cv.py: Hierarchy._get_data | the chunked SQL of `_compile_split`; induction over the number of chunks; negation at multiples of 999; the assertion on missing rows |
| C06 genetic algorithm populations stay well formed for ever | partial | GAOperators | ga/algorithm.py: GeneticAlgorithm.search; ga/algorithm.py: GeneticAlgorithm._new_generation; ga/mating.py; ga/mutate.py; ga/natural_selection.py | one generation with all random choices as inputs; invariant by induction over histories |
| C07 elitism: the best fitness never decreases | partial | GAOperators | ga/natural_selection.py: population_reduction; ga/natural_selection.py: remove_duplicates | `population_reduction` and `remove_duplicates`; invariant on the best fitness; negation when duplicates are removed after rounding |
| C08 parent selection favours fitter individuals | partial | GASelection | ga/algorithm.py: GeneticAlgorithm._selection | `selection` probability table and loop, with shuffle and draws as inputs; membership; counting of outcomes on every grid of draws shows the fitter individual is returned less often |
| C09 mutation operators change only what they advertise | partial | GAOperators | ga/mutate.py | the operators of `mutate.py` with draws as inputs; induction on the individual |
| C10 crossover only recombines the parents position by position | proved | GAOperators | ga/mating.py: cut_and_splice | `cut_and_splice` with the cut as input; pointwise |
| C11 parallel fitness evaluation equals serial evaluation under every schedule | proved | GAFitness | ga/algorithm.py: GeneticAlgorithm._parallel_iterator; ga/algorithm.py: GeneticAlgorithm._serial_iterator | `_parallel_iterator`: results arrive in any order and are scattered by index; invariance under permutations |
| C12 Pareto ranking respects dominance | partial | GAFitness | ga/algorithm.py: GeneticAlgorithm._pareto_transform; ga/algorithm.py: GeneticAlgorithm._locate_pareto | `_locate_pareto`, `_pareto_transform`; invariant of the sweep; negation for failed individuals (nan) |
| C13 stopping criterion fires exactly after the requested number of stalled generations | proved | GAFitness | ga/convergence.py: Convergence.no_progress; ga/convergence.py: Convergence.stagnation | `Convergence` as a state machine; induction over histories against a run-length specification |
| C14 standardize puts every column on one affine scale recoverable from the returned parameters | proved | Scaling | preprocess/scaling.py: standardize | `standardize` over ℝ; finite sums |
| C15 normalize and min_max keep training data inside their ranges and preserve order | proved | Scaling | preprocess/scaling.py: normalize; preprocess/scaling.py: min_max | `normalize`, `min_max` over ℝ; order lemmas |
| C16 unit_length rows have norm one or zero | proved | Scaling | preprocess/scaling.py: unit_length | `unit_length` over ℝ; norms |
| C17 target scaling is invertible | partial | Scaling | preprocess/scaling.py: target_standardize; preprocess/scaling.py: target_normalize; preprocess/scaling.py: target_center | `target_*` functions over ℝ; algebra; negation for the scale that is not returned |
| C18 cleaning keeps train, test, targets and labels aligned and removes all non-finite values | proved | Clean | preprocess/clean_data.py: clean_infinite | `clean_infinite` with non-finite values as `none`; masks on lists |
| C19 clean_variance removes exactly the constant features | partial | Clean | preprocess/clean_data.py: clean_variance | `clean_variance`; masks on lists; negation for columns that differ only in the test data |
| C20 outlier removal keeps features and targets paired and bounded | partial | Clean | preprocess/clean_data.py: remove_outliers | `remove_outliers`; fixed-point style loop on lists, statement about the kept pairs |
| C21 second-order feature names describe the generated columns | proved | FeatEng | preprocess/feature_engineering.py: get_order_2, get_labels_order_2, get_order_2ab, get_labels_order_2ab, get_ablog, get_labels_ablog | `get_order_2`, `get_order_2ab`, `get_ablog` and their label functions; induction over the index loops |
| C22 ratio feature names describe the generated columns | partial | FeatEng | preprocess/feature_engineering.py: get_div_order_2, get_labels_order_2 | `get_div_order_2` and `get_labels_ratio`; induction, negation for ratio labels |
| C23 generated symbolic features are exactly the monomials of bounded order | proved | FeatEng | preprocess/feature_engineering.py: generate_positive_features, generate_features | `generate_positive_features`; enumeration of exponents shown complete and duplicate free |
| C24 greedy elimination accounts for every feature exactly once | proved | Elimination | preprocess/greedy_elimination.py: GreedyElimination.greedy_elimination | `greedy_elimination` and `feature_importance` loops; invariant of the loop: kept and removed features partition the set |
| C25 greedy elimination can be killed and resumed without changing its result | proved | Elimination | preprocess/greedy_elimination.py: GreedyElimination._load_data; preprocess/greedy_elimination.py: GreedyElimination._write_data | the save file of the loop; refinement: run from a saved state = rest of the run |
| C26 parallel feature elimination equals serial elimination under every schedule | partial | Elimination | preprocess/greedy_elimination.py: GreedyElimination._parallel_iterator; preprocess/importance_testing.py: ImportanceElimination | the parallel tables; invariance under permutations of the results, negation for metadata |
| C27 feature screening orders features by the requested correlation and partitions them | partial | Screening | preprocess/feature_elimination.py: FeatureScreening.screen; preprocess/feature_elimination.py: FeatureScreening._get_correlation | `screen` with correlations as oracle values; sorting lemmas |
| C28 iterative screening partitions the features and reaches the requested size | proved | Screening | preprocess/feature_elimination.py: FeatureScreening.iterative_screen; preprocess/feature_elimination.py: FeatureScreening._iterator | `iterative_screen`; loop invariant and measure |
| C29 feature perturbation touches only the tested feature | proved | Elimination, Perturbation | preprocess/importance_testing.py: feature_invariance, feature_randomize, feature_shuffle | the perturbation functions; pointwise and permutation lemmas |
| C30 PCA returns the leading distinct components | partial | Screening | preprocess/feature_extraction.py: catlearn_pca | component loop of `catlearn_pca`; closed form; negation |
| C31 active-learning emulation never tests on training data and never repeats a point | proved | ActiveLearning | active_learning/algorithm.py: ActiveLearning.test_acquisition | `ActiveLearning.acquire` emulation; invariant over iterations |
| C32 members of an active-learning ensemble are independent | partial | ActiveLearning | active_learning/algorithm.py: ActiveLearning.ensemble_test; active_learning/algorithm.py: ActiveLearning.test_acquisition | the ensemble with the caller's list as shared mutable state; aliasing model |
| C33 ensemble results are reported in seed order under every schedule | partial | ActiveLearning | active_learning/algorithm.py: ActiveLearning.ensemble_test | the parallel ensemble; any order of results |
| C34 upper confidence bound rewards what the user asked for | partial | Acquisition | active_learning/acquisition_functions.py: UCB | `UCB`; order lemmas over ℝ |
| C35 expected improvement is a non-negative, monotone score symmetric between max and min | proved | Acquisition | active_learning/acquisition_functions.py: EI | `EI` with Gaussian pdf/cdf of Mathlib; integral identity, derivatives |
| C36 probability of improvement is a probability that grows with the prediction | proved | Acquisition | active_learning/acquisition_functions.py: PI | `PI` as Gaussian probability of Mathlib; monotonicity |
| C37 classification-aware ranking is class aware | partial | Acquisition | active_learning/acquisition_functions.py: classify, rank | `classify` with the index reuse of the code; negations; positive part for candidates of the class of the best known target |
| C38 ridge regression solves the regularised normal equations and is the unique minimiser | proved | Ridge | regression/ridge_regression.py: RidgeRegression.RR | `RR` with matrices over ℝ; normal equations and strict convexity |
| C39 closed-form leave-one-out error equals the error of really leaving one out | proved | Ridge | regression/ridge_regression.py: RidgeRegression._LOOCV | `LOOCV_l`; Sherman–Morrison style identity over ℝ |
| C40 a user supplied ridge regularisation is used | partial | Ridge | regression/ridge_regression.py: RidgeRegression.get_coefficients, RR | `find_optimal_regularization` call and its default argument; negations |
| C41 covariance matrices are symmetric, positive semidefinite and invertible with noise | proved | Kernel | regression/gpfunctions/covariance.py: get_covariance; regression/gpfunctions/kernels.py | kernels of `kernels.py` and `get_covariance`; Schur products and PSD lemmas |
| C42 GP prediction interpolates and its uncertainty is consistent | proved | GPPredict | regression/gaussian_process.py: GaussianProcess.predict, _make_prediction; regression/gpfunctions/uncertainty.py | `GaussianProcess.predict` algebra; linear algebra over ℝ with the exact inverse |
| C43 GP updates leave no stale state | partial | GPBuild, GPState | regression/gaussian_process.py: GaussianProcess.update_data, update_gp | the GP object as a state machine; invariant “state belongs to the data”, negations per stale attribute |
| C44 predict and predict_uncertainty agree | partial | GPUncertainty | regression/gaussian_process.py: GaussianProcess.predict, predict_uncertainty | `predict` with uncertainty and `predict_uncertainty`; equality, negation under scaling |
| C45 hyperparameter vector and kernel list are in bijection | partial | KernelSetup | regression/gpfunctions/kernel_setup.py: list2kdict, kdicts2list | `kernels_to_list` and `list_to_kdict`; induction over the kernel list |
| C46 gradient-enhanced Gaussian covariance contains the true derivatives | proved | KernelGrad | regression/gpfunctions/kernels.py: gaussian_xx_gradients, gaussian_xxp_gradients | gradient blocks of `gaussian_xx_gradients`; `HasDerivAt` |
| C47 hyperparameter derivatives are the true derivatives | partial | KernelJac | regression/gpfunctions/kernels.py: gaussian_dk_dwidth, laplacian_dk_dwidth; regression/gpfunctions/log_marginal_likelihood.py: dK_dtheta_j | `dkernel_dwidth` etc.; `HasDerivAt`, negations |
| C48 error statistics are consistent | proved | Errors, LogErrors | regression/cost_function.py: get_error | `get_error`; finite sums, Cauchy–Schwarz, sorted lists |
| C49 the hyperparameter cost function measures the quality of a kernel | partial | Errors | regression/cost_function.py: _cost_function | `cost_function`; negation |
| C50 scaling the kernel back and forth loses nothing | partial | ModelFiles | regression/gpfunctions/default_scale.py; regression/gpfunctions/kernel_scaling.py | scaling of kernels and files; algebra |
| C51 saved kernels are read back in the same order | partial | ModelFiles | regression/gpfunctions/io.py | kernel dictionaries in hdf5; lexicographic order of keys |
| C52 forces of the model potentials are the negative gradients of their energies | proved | Potentials | optimize/functions_calc.py | `functions_calc.py`; `HasDerivAt` of polynomials and exponentials |
| C53 constrained coordinates never move | partial | MLMin, Masks | optimize/constraints.py: create_mask, apply_mask, unmask_geometry | `constraints.py` masks and MLMin/MLNEB use; list induction and run invariant |
| C54 ML minimisation respects its budget and its convergence criterion | proved | MLMin | optimize/mlmin.py: MLMin.run | `MLMin.run` with surrogate and energy as oracles; invariant over iterations |
| C55 ML-NEB evaluates only interior images and respects its budget and convergence criterion | partial | MLNEB | optimize/mlneb.py: MLNEB.run | `MLNEB.run` with surrogate and energy as oracles; invariant over iterations |
| C56 the MLNEB acquisition strategies are different strategies | partial | MLNEB | optimize/mlneb.py: MLNEB.run | `select_next_train` rules; case analysis |
| C57 descriptor database behaves like a keyed table | partial | Database | utilities/database_functions.py: DescriptorDatabase | `DescriptorDatabase`; refinement to a keyed table; a query of all rows (or of a column of all rows) returns one row per stored id, and no names raise IndexError |
| C58 fingerprint database returns the requested matrix | partial | Database, DatabaseNames | utilities/database_functions.py: FingerprintDB | `FingerprintDB`; refinement to a finite map, negations on order and broadcasting |
| C59 neighbour relation is symmetric | partial | Neighbors | utilities/neighborlist.py: catlearn_neighborlist | neighbour lists in `neighborlist.py`; algebra of distances |
| C60 connection matrices are symmetric, loop free and shells do not overlap | proved | Neighbors | featurize/neighbor_matrix.py: connection_matrix, _get_neighborlist | `neighbor_matrix.py`; algebra of distances |
| C61 feature rows correspond to structures in order, serial or parallel | partial | Features, Fingerprints | featurize/setup.py: FeatureGenerator.return_vec, return_names | `FeatureGenerator` rows and parallel map; list lemmas |
| C62 fingerprints do not depend on the order of atoms | proved | Fingerprints | fingerprint/standard.py; fingerprint/molecule.py | fingerprints over lists of atoms; permutation invariance (eigenvalues through similar matrices) |
| C63 bag of bonds counts every bond once | partial | Fingerprints | fingerprint/standard.py: StandardFingerprintGenerator.bag_edges | `bag_edges`; counting over unordered pairs |
| C64 averages in fingerprints are averages | partial | Fingerprints | fingerprint/standard.py: distance_vec, element_parameter_vec | averages in `fingerprint`; algebra and negations |
| C65 slab and adsorbate atoms partition the structure | partial | Slab | featurize/adsorbate_prep.py: slab_index, ads_index, info2primary_index | `adsorbate_prep` index functions; set lemmas |
| C66 termination detection reports the right layers under the right names | partial | Slab | featurize/adsorbate_prep.py: termination_info, detect_termination | `detect_termination`/`autogen_info`; list lemmas and negation; cases of `autogen_info` give the attached or the detected layers |
| C67 oxide detection depends only on the composition | partial | Slab | featurize/slab_utilities.py: is_oxide | `is_oxide`; set order as parameter |
| C68 learning curve uses the training sizes it reports | partial | Split | learning_curve/learning_curve.py: LearningCurve.run, _single_test | `learning_curve` sizes; arithmetic |
| C69 holdout split is a split | partial | Split | utilities/utilities.py: holdout_set | `holdout_set`; permutation, negation |
| C70 unique test set and training set are disjoint | proved | Split | api/ase_data_setup.py: get_unique, get_train | `test_set`/`train_set` of `data_process`; set lemmas |
| C71 k-fold splitting leaves the caller's data alone | partial | KFold | cross_validation/k_fold_cv.py: k_fold | the in-place shuffle of `k_fold`: the model returns the caller's array as well; permutation lemma and negation |
| C72 a generation of the genetic algorithm always completes | partial | GASelection | ga/algorithm.py: GeneticAlgorithm._new_generation; ga/natural_selection.py: remove_duplicates | the mate search as a fuelled loop; every continuation diverges for one individual, an exit exists from two on |
| C73 the limit on the number of features is respected | partial | GAFitness | ga/algorithm.py: GeneticAlgorithm._new_generation; ga/initialize.py: initialize_population | `limit_mutant` and mating with draws as inputs; list induction, negation by mating |
| C74 multi-objective survival respects dominance across generations | partial | GAFitness | ga/algorithm.py: GeneticAlgorithm.search, _pareto_transform; ga/natural_selection.py: population_reduction | ranks of batches; counterexample population; positive part for individuals ranked in one batch |
| C75 the fitness is cross validated on every row exactly once | proved | GAFitness | ga/algorithm.py: _cross_validate | `k_fold` inside the fitness; permutation lemmas |
| C76 mating combines two different members | partial | GASelection | ga/algorithm.py: GeneticAlgorithm._new_generation | choice of mates on lists and on numpy arrays (`!=` elementwise); case analysis |
| C77 no individual without features is evaluated | partial | GAFitness, GAOperators | ga/mutate.py; ga/mating.py | operators of `mutate.py`; induction, counterexample |
| C78 scaling leaves the caller's arrays alone | partial | Scaling | preprocess/scaling.py: standardize; preprocess/scaling.py: normalize; preprocess/scaling.py: min_max; preprocess/scaling.py: unit_length | in-place replacement of zero deviations; the model returns the caller's array as well |
| C79 skewness cleaning keeps exactly the acceptable features | proved | Clean | preprocess/clean_data.py: clean_skewness | `clean_skewness` with skewness as oracle; masks on lists |
| C80 masked features survive cleaning | partial | Clean | preprocess/clean_data.py: clean_infinite; preprocess/clean_data.py: clean_variance; preprocess/clean_data.py: clean_skewness | the `mask` argument of the cleaning functions; membership in filtered lists |
| C81 the requested number of deviations decides what an outlier is | partial | Clean | preprocess/clean_data.py: remove_outliers | `remove_outliers`; the deviation argument does not occur in the result; positive part for fewer deviations than the constant |
| C82 root and logarithm features are always defined | proved | FeatEng | preprocess/feature_engineering.py: single_transform | `single_transform`; lower bound on the shifted columns |
| C83 feature engineering leaves the caller's matrix alone | partial | FeatEng, FeatEngCalls | preprocess/feature_engineering.py: get_ablog; preprocess/feature_engineering.py: single_transform; preprocess/feature_engineering.py: get_order_2 | in-place shift of `get_ablog`; the model returns the caller's matrix as well; violated by every non-empty matrix; scripts as lists of calls on one array: unchanged without `get_ablog`, grown by at least 2^k - 1 after k calls of it (induction) |
| C84 exclude=True suppresses the constant feature | partial | FeatEng | preprocess/feature_engineering.py: generate_positive_features | `generate_features` with `exclude`; case analysis on `N` |
| C85 generated fractions are exactly the reduced ones | proved | FeatEng | preprocess/feature_engineering.py: generate_features | `generate_features` fractions; enumeration of exponent pairs, coprimality as disjoint supports |
| C86 metadata returned by the predict function is reported | partial | Elimination | preprocess/greedy_elimination.py: GreedyElimination.greedy_elimination | metadata path of `greedy_elimination`; negation |
| C87 metadata reported with an eliminated feature belongs to that feature | partial | Elimination | preprocess/importance_testing.py: ImportanceElimination.importance_elimination | metadata path of `feature_importance`; list indices |
| C88 a greedy elimination killed at any moment can be restarted | partial | Elimination | preprocess/greedy_elimination.py: GreedyElimination._write_data; preprocess/greedy_elimination.py: GreedyElimination._load_data | crash points of the save file writer; counterexample between truncation and write; partial: a run killed at any moment restarts with the result of the uninterrupted run exactly if the file is not torn |
| C89 greedy elimination evaluates the data it is given | partial | Elimination | preprocess/greedy_elimination.py: GreedyElimination._load_data | data path of the elimination loop; negation; partial: files left by runs on the same data all lead to the same result |
| C90 the response used by iterative screening has no component along accepted features | partial | Screening | preprocess/feature_elimination.py: FeatureScreening._get_response | residual response of iterative screening; orthogonality over ℝ |
| C91 each round of iterative screening accepts the features ranked best by the regression | partial | Screening | preprocess/feature_elimination.py: FeatureScreening._iterator | one round of iterative screening; counterexample ranking; positive part for features ranked in the order of their columns |
| C92 eliminate_features honours the requested size | partial | Screening | preprocess/feature_elimination.py: FeatureScreening.eliminate_features | `eliminate_features` size path; negation; positive part for the default size |
| C93 training and test matrices are reduced to the same features | proved | Screening | preprocess/feature_elimination.py: FeatureScreening._reduce_matrix; preprocess/feature_elimination.py: FeatureScreening.eliminate_features | `eliminate_features` on train and test; equality of index lists |
| C94 PCA variances are percentages | proved | Screening | preprocess/feature_extraction.py: catlearn_pca | explained variances; sums of nonnegative numbers |
| C95 a screening object can be reused | partial | Screening | preprocess/feature_elimination.py: FeatureScreening.iterative_screen | attribute updates of the screening object; state comparison; positive part for repeated calls with the same data |
| C96 optimistic ranking prefers what the user optimises for | partial | Acquisition | active_learning/acquisition_functions.py: optimistic, rank | `optimistic` score; order lemmas |
| C97 the limit on the training set of an active-learning emulation is respected | partial | ActiveLearning | active_learning/algorithm.py: ActiveLearning | loop bound of the emulation; invariant and counterexample |
| C98 ranking towards a numerical target works for every metric | partial | Acquisition | active_learning/acquisition_functions.py: rank, UCB, EI, PI | `rank` dispatch with a numerical target; error values; positive part for the metrics that do not look at the kind of objective |
| C99 proximity scores prefer predictions nearer the target | proved | Acquisition | active_learning/acquisition_functions.py: proximity, optimistic_proximity, probability_density | `proximity` scores; monotonicity over ℝ |
| C100 the cluster score penalises crowded clusters | partial | Acquisition | active_learning/acquisition_functions.py: cluster | `cluster` score; algebra and counterexample |
| C101 classification-aware ranking keeps candidates and scores aligned | proved | Acquisition | active_learning/acquisition_functions.py: classify | `classify` order; permutation lemma |
| C102 the regularisation search never returns a worse value than its initial grid | partial | RidgeFit, RidgeSearch | regression/ridge_regression.py: RidgeRegression.find_optimal_regularization | `find_optimal_regularization` with infinities and NaN kept as values of the numbers, `np.linspace`, `np.argmin` (first NaN, else first minimum) and the branches of `_LOOCV_l` on short ranges; minimum over a growing list by induction on the search steps; NaN results for singular data, errors for fewer than two grid steps; the whole call of `get_coefficients` composed with the leave-one-out identity (C39) and the unique minimiser (C38); for dependent features the coefficients are never numbers (negation) |
| C103 effective number of parameters | proved | Ridge | regression/ridge_regression.py: RidgeRegression.RR | trace of the hat matrix; eigenvalue sums |
| C104 the bootstrap error is an out-of-sample error | proved | Ridge | regression/ridge_regression.py: RidgeRegression._bootstrap_ERR, bootstrap_calc | bootstrap index sets; set lemmas and convex combination |
| C105 gradient blocks of the linear and constant kernels are derivatives of the kernel | partial | KernelGrad | regression/gpfunctions/kernels.py: linear_kernel, constant_kernel | gradient blocks of linear and constant kernels; `HasDerivAt` |
| C106 the gradient covariance is a covariance | partial | KernelGrad | regression/gpfunctions/covariance.py: get_covariance; regression/gpfunctions/kernels.py: gaussian_kernel, gaussian_xx_gradients | gradient covariance blocks as Gram matrix of derivatives; positive semidefiniteness, counterexample for the linear kernel |
| C107 combining kernels when gradients are evaluated | partial | KernelGrad | regression/gpfunctions/covariance.py: get_covariance | combination of kernel blocks; algebra (product rule) and negation |
| C108 log-scaled hyperparameters | partial | KernelMisc | regression/gpfunctions/covariance.py: get_covariance | `log_scale` branch of each kernel; `exp`/`log` algebra |
| C109 the order of kernels is immaterial | partial | KernelMisc | regression/gpfunctions/covariance.py: get_covariance | addition and multiplication over the kernel list; commutativity, counterexample for mixed lists |
| C110 the quadratic kernel is the rational quadratic of its parameters | partial | KernelMisc | regression/gpfunctions/kernels.py: quadratic_kernel; regression/gpfunctions/kernel_setup.py: _quadratic_setup | quadratic kernel; algebra, counterexample |
| C111 prepare_kernels makes kernels and bounds the optimiser can use | partial | KernelMisc | regression/gpfunctions/kernel_setup.py: prepare_kernels | `prepare_kernels` defaults and bounds; induction over the kernel list; bounds given by the user are passed on without a check of their number (negation with witness, and positive statement for the right number) |
| C112 every implemented kernel can be used | partial | KernelMisc | regression/gpfunctions/kernel_setup.py: prepare_kernels; regression/gpfunctions/kernels.py: AA_kernel, sqe_kernel, scaled_sqe_kernel | type dispatch of kernels; error values; positive part for lists of the types with a setup function by induction |
| C113 regularised models can always be built | proved | GPBuild | regression/gaussian_process.py: GaussianProcess.__init__, update_data | `covariance + regularization²`; positive definiteness |
| C114 the log marginal likelihood is that of the Gaussian prior | proved | GPLikelihood | regression/gpfunctions/log_marginal_likelihood.py: log_marginal_likelihood; regression/gaussian_process.py: GaussianProcess._update_lml | Cholesky form of the likelihood against the density of the multivariate normal; determinants; with standardised data the density of these, NaN for constant targets |
| C115 more training data never increases the predicted uncertainty | partial | GPUncertainty | regression/gaussian_process.py: GaussianProcess.predict; regression/gpfunctions/uncertainty.py | posterior variance; Schur complement monotonicity for models that do not scale their data; models that do multiply by the standard deviation of the targets, which can grow (negation with a constant kernel, whose variance is computed in closed form) |
| C116 the order of the training data is immaterial | proved | GPOrder | regression/gaussian_process.py: GaussianProcess | reindexing of the training set by a permutation; matrix reindexing |
| C117 the prediction is the best linear predictor | proved | GPOrder | regression/gaussian_process.py: GaussianProcess.predict, _make_prediction | best linear predictor; completing the square in the PSD form |
| C119 uncertainty_with_reg includes the noise | partial | GPMisc | regression/gaussian_process.py: GaussianProcess.predict, predict_uncertainty | `uncertainty_with_reg`; algebra over ℝ |
| C120 training predictions are predictions | partial | GPMisc | regression/gaussian_process.py: GaussianProcess.predict | `predict(get_training_error)`; algebra |
| C121 uncertainties can be had from every model | partial | GPMisc | regression/gaussian_process.py: GaussianProcess.predict | the `uncertainty` argument path; error values |
| C124 the likelihood gradient given to the optimiser is the gradient of the loss | partial | GPLikelihood | regression/gpfunctions/log_marginal_likelihood.py: log_marginal_likelihood, dK_dtheta_j | gradient of the log marginal likelihood; `HasDerivAt` of determinant and inverse along a hyperparameter |
| C126 a model read from an hdf5 file is the model that was written | partial | ModelFiles | regression/gpfunctions/io.py: write, read | model read/write through hdf5 groups as finite maps; equality of states |
| C127 MLMin reports missing convergence only when the criterion is missed | partial | MLMin | optimize/mlmin.py: MLMin.run | final report of MLMin; state comparison |
| C128 MLMin.list_atoms shows the evaluated geometries | partial | MLMin | optimize/mlmin.py: MLMin.run, MLMin.__init__ | the list of atoms with object identity (the same object is appended); aliasing model |
| C129 the documented MLMin kernels run | partial | MLMin | optimize/mlmin.py: MLMin.run | kernel dispatch of MLMin; error values |
| C130 after MLMin converges the structure of the caller is the converged one | partial | MLMin | optimize/mlmin.py: MLMin.run | object written back to the caller; aliasing model |
| C131 MLNEB convergence is tested at the top of the path | partial | MLNEB | optimize/mlneb.py: MLNEB.run | convergence test of MLNEB; order lemmas |
| C132 MLNEB records complete data for each evaluation | partial | MLNEB | optimize/mlneb.py: MLNEB.run, eval_and_append | records per evaluation; list lengths as invariant |
| C133 create_column adds the named column | partial | Database, DatabaseNames | utilities/database_functions.py: DescriptorDatabase.create_column | `create_column`; refinement to a keyed table |
| C134 stored fingerprints are never changed | proved | Database | utilities/database_functions.py: FingerprintDB | `FingerprintDB` insertions; monotone map invariant |
| C135 the identifier returned by image_entry identifies the image | partial | Database | utilities/database_functions.py: FingerprintDB.image_entry, FingerprintDB.fingerprint_entry | `image_entry` identifier; case analysis on rows with the same key |
| C136 neighbour shells are numbered by distance | partial | Neighbors | utilities/neighborlist.py: catlearn_neighborlist, _neighbor_iterator | shell numbering; order lemmas |
| C137 max_neighbor=full ends and connects all pairs | proved | Neighbors | utilities/neighborlist.py: catlearn_neighborlist | loop to `full`; termination by growing radius and counting |
| C138 connection_dict lists the neighbours of every atom | partial | Neighbors | featurize/neighbor_matrix.py: connection_dict | `connection_dict`; list lemmas |
| C139 bond count features count bonds | partial | Neighbors | featurize/neighbor_matrix.py: _get_features, _heteroatomic_matrix | bond counts; counting over pairs |
| C140 generalised coordination numbers | partial | Neighbors | featurize/neighbor_matrix.py: _generalized_matrix | generalised coordination numbers; sums |
| C141 ase_connectivity returns the bonds of a periodic structure | partial | Neighbors | utilities/neighborlist.py: ase_connectivity | positions, cell, periodic directions and cutoffs with the neighbour list of ASE as documented (images nearer than the sum of the cutoffs); characterisation of the entries, invariance under shifts by lattice vectors by a bijection of the images, monotony in the cutoffs; stored lists, missing cutoffs and multiple connections violate the property |
| C142 normalize_features finds the elements and sizes, and later calls keep the columns | proved | Features | featurize/setup.py: FeatureGenerator.normalize_features, _get_atom_types, _get_atom_length, return_vec | `normalize_features`; list lemmas |
| C143 bag_element_cn counts every atom once | partial | Fingerprints | fingerprint/standard.py: StandardFingerprintGenerator.bag_element_cn | `bag_element_cn`; counting |
| C144 bag_edges_cn counts every bond once, by element and coordination number | partial | Fingerprints | fingerprint/standard.py: StandardFingerprintGenerator.bag_edges_cn | `bag_edges_cn`; counting over unordered pairs |
| C145 the detected adsorbate has the composition of the species | partial | Slab | featurize/adsorbate_prep.py: detect_adsorbate, formula2ads_index, connectivity2ads_index, last2ads_index, tags2ads_index | adsorbate detection; multiset of symbols |
| C146 detect_termination finds the layers of the slab | partial | Slab | featurize/adsorbate_prep.py: detect_termination, tags_termination, constraints_termination, layers_termination, connectivity_termination | `detect_termination` modes; list lemmas |
| C147 attach_cations partitions the atoms | proved | Slab | featurize/adsorbate_prep.py: attach_cations | `attach_cations`; set partition |
| C148 The outer electron count of an element reads its whole electron configuration | partial | PeriodicTable | featurize/periodic_table_data.py: n_outer | the character loop of `n_outer` over all configuration strings built from shells; induction over shells |
| C149 The columns of list_mendeleev_params are the columns make_labels names | partial | PeriodicLabels, PeriodicTable | featurize/periodic_table_data.py: list_mendeleev_params, make_labels, get_mendeleev_params | `list_mendeleev_params` and `make_labels` column by column; induction over the parameter list |
| C150 A chemical formula is read with the right composition weights | partial | PeriodicTable | featurize/periodic_table_data.py: stat_mendeleev_params | the character scanner of `stat_mendeleev_params` with the regular expression for decimals; loop invariant over the formula, exact result for every formula |
| C151 formal charges of a compound add up to zero | partial | Utilities | utilities/utilities.py: formal_charges | the loop of `formal_charges` as a fold over the atoms with nan as `none`; closed form of the result by induction, sums over atoms |
| C152 formal charges have the right sign and belong to the right atoms | proved | Utilities | utilities/utilities.py: formal_charges | from the closed form of C151; signs of sums, reindexing by a permutation |
| C153 geometry_hash does not depend on the order of the atoms | partial | Utilities | utilities/utilities.py: geometry_hash | `geometry_hash` with wrapping, printing and md5 as parameters; uniqueness of sorted lists |
| C154 geometry_hash distinguishes different geometries | partial | Utilities | utilities/utilities.py: geometry_hash | the same model with a printer that summarises long arrays, or that concatenates numbers; equality of the printed strings; equivalence with the texts of the positions |
| C155 penalties switch on exactly at the critical distance | proved | Utilities | utilities/penalty_functions.py: penalty_close, penalty_far | `penalty_close`, `penalty_far` over ℝ with the Euclidean distance; minimum of a list, order lemmas |
| C156 a trajectory is converted to training data image by image | partial | OptIO | optimize/io.py: ase_to_catlearn | `ase_to_catlearn` with `np.reshape` on the concatenated rows; blocks of a flattened list, counterexamples |
| C157 flat arrays and positions convert back and forth | proved | OptIO | optimize/io.py: array_to_ase, array_to_atoms | `np.reshape` as blocks; round trips by induction |
| C158 Statistics over a group of atoms | partial | SiteStats | fingerprint/adsorbate.py: mean_site, max_site, min_site, median_site, sum_site, mean_chemisorbed_atoms, mean_surf_ligands, term, bulk | the fingerprints of adsorbate.py as one function of the statistic and the group; column lemmas, order lemmas for sorted lists, permutation invariance |
| C159 Names of the bulk fingerprints | partial | SiteStats | fingerprint/bulk.py: bulk_summation, bulk_average, bulk_std | bulk.py with its fixed name lists; lengths by computation, counterexamples |
| C160 Bulk fingerprints and supercells | proved | SiteStats | fingerprint/bulk.py: bulk_summation, bulk_average, bulk_std | the same model; sums, means and medians of a repeated list |
| C161 Strain | proved | SiteStats | fingerprint/adsorbate.py: strain; featurize/periodic_table_data.py: get_radius | `get_radius` and `strain`; rational arithmetic |
| C162 Convoluted fingerprints | partial | SiteStats | fingerprint/convoluted.py: conv_bulk, conv_term | convoluted.py over ℝ with numpy's square root; exact sums, counterexamples |
| C163 Bags of bonds of adsorbates | partial | AdsBonds | fingerprint/adsorbate.py: bag_edges_ads, bag_edges_chemi, bag_edges_all | the nested loops as lists of pairs; bijection with the bonds, counterexamples |
| C164 Bag of coordination numbers | partial | AdsBonds | fingerprint/adsorbate.py: bag_cn | the loop over the site atoms with Python's negative indices; counting |
| C165 Generalized coordination numbers | partial | AdsBonds | fingerprint/adsorbate.py: generalized_cn | `generalized_cn` with the inner loop as written; closed forms by induction over the chemisorbed atoms |
| C166 Counting adsorbate atoms | proved | AdsBonds | fingerprint/adsorbate.py: bag_atoms_ads, count_chemisorbed_fragment, db_size | counting lemmas over lists and pairs of atoms |
| C167 Electronegativity differences | partial | AdsBonds | fingerprint/adsorbate.py: en_difference_ads, en_difference_chemi, en_difference_active | `np.einsum` as a double sum with nan as `none`; sums over bonds, symmetrisation |
| C168 Formal charges in chalcogenides | partial | AdsBonds | fingerprint/chalcogenide.py: formal_charges | the matrix formulas of `formal_charges` with nan as `none`; exchange of sums, minimum of a list |
| C169 nearest-neighbour matrix of particles | partial | Particle | fingerprint/particle.py: ParticleFingerprintGenerator.nearestneighbour_vec | the counting loops as lists of increments; bijection with pairs of atoms, index arithmetic of flattened matrices |
| C170 bond counts of particles | partial | Particle | fingerprint/particle.py: ParticleFingerprintGenerator.bond_count_vec, distribution_vec | the same technique with three indices; counterexamples for every structure with thirteen neighbours; effect of `distribution_vec` on cell and positions |
| C171 default fingerprint sets | partial | Particle | featurize/setup.py: default_fingerprinters; fingerprint/standard.py: default_molecule_fingerprinters | the name lists as written (adjacent literals joined) and `getattr` as a lookup; case analysis |
| C172 pair features | proved | Particle | featurize/setup.py: FeatureGenerator.featurize_atomic_pairs | rows of all pairs in row-major order; offsets by induction over the structures |
| C173 General preprocessing gives clean, standardised columns and treats later data the same way | partial | Estimator | estimator/general_preprocess.py: GeneralPrepreprocess.process, GeneralPrepreprocess.transform, GeneralPrepreprocess._eliminate_cleaner, GeneralPrepreprocess._standardize_scalar; preprocess/clean_data.py: clean_infinite, clean_variance; preprocess/scaling.py: standardize | the object as a state, columns as lists of optional numbers; mean and variance of the standardised column by algebra, kept columns from the lemmas of C73 on cleaning |
| C174 The default kernels of the general estimator fit the processed data | partial | Estimator | estimator/general_kernel.py: default_lengthscale, general_kernel, smooth_kernel; estimator/general_gp.py: GeneralGaussianProcess.train_gaussian_process; regression/gpfunctions/kernel_setup.py: prepare_kernels | variance of the flattened matrix from the columns; `prepare_kernels` unfolded for both lists; combined with C173 for raw data |
| C175 Neighbour sum and mean fingerprints describe the neighbourhood of every atom | partial | Graph | fingerprint/graph.py: neighbor_sum_vec, neighbor_mean_vec, _normalize_neighbors, _prop2matrix, _initialize_features | the padded matrix product over optional numbers reduced to a sum over atoms; multiset argument for the numbering; sorted permutations |
| C176 The CatApp fingerprint describes the two metals of the surface | partial | Catapp | fingerprint/catapp.py: CatappFingerprintGenerator.catapp_AB, facetdict | stable sort by counts; head and last element of the sorted list; counterexamples for all pairs of elements |
| C177 Data attached to a structure is returned as it was last stored | partial | AtomsApi | api/ase_atoms_api.py: extend_atoms_class, set_features, get_features, set_neighborlist, get_neighborlist, set_graph, get_graph, images_connectivity; featurize/base.py: BaseGenerator.get_neighborlist, BaseGenerator.make_neighborlist | induction over programs of operations on a lazily created dictionary; one-step analysis of the cached neighbour list |
| C178 Structure, graph, adjacency matrix and neighbour list agree | partial | AtomsApi | api/networkx_graph_api.py: ase_to_networkx, networkx_to_adjacency, matrix_to_nl | membership in the neighbour list read off the matrix; uniqueness of sorted lists |
| C179 The points of a learning curve summarise one level of results each | partial | Curve | learning_curve/data_process.py: data_process.get_statistic, data_process.average_nested | the grouping loop as a recursion over the results; induction over results and levels, sums over pairs for the spread |
| C180 Features selected with lasso have the size they are filed under, and the search ends | partial | Curve | learning_curve/feature_selection.py: feature_selection.selection, feature_selection.alpha_finder, feature_selection.interval_modifier | the search loop with a bound on the passes and the lasso fit as a parameter; geometric decay of the interval for termination, an invariant for the endless search |
| C181 The errors reported for a training subset belong to the model trained on that subset | partial | Curve | learning_curve/placeholder.py: placeholder.predict_subsets, placeholder.reg_data_var; learning_curve/learning_curve.py: hierarchy | the list of results handed from subset to subset; closed form of the whole list by induction over the subsets |
| C182 Learning curve errors do not depend on the units of the data | partial | CurveScale | learning_curve/data_process.py: data_process.scaling_data, data_process.globalscaling, data_process.prediction_error | affine changes carried through mean, deviation, extremes and the root mean square error, for an arbitrary regression method |
| C122 A fixed basis continues its own functions exactly | partial | FixedBasis | regression/gaussian_process.py: GaussianProcess._fixed_basis, GaussianProcess._make_prediction | the generalised least squares algebra over real matrices of any size; positive definiteness of the normal matrix for the variances and the singular case |
| C183 Backward elimination keeps the most sensitive features and says which they are | partial | Sensitivity | regression/gpfunctions/sensitivity.py: SensitivityAnalysis.backward_selection, SensitivityAnalysis._opt_step, SensitivityAnalysis._mean_sensitivity | the selection loop as a recursion over the numbers to keep, optimiser and sensitivities as parameters; an invariant for the columns, sortedness for the removed features, real analysis for the sensitivity far from the data |
| C184 The populations of GAFeatureSelection stay valid | partial | FeatureGA | featurize/site_stability.py: GAFeatureSelection.__init__, GAFeatureSelection.crossover, GAFeatureSelection.mutate, GAFeatureSelection.evolve | the genetic algorithm as a state machine with all draws as parameters; invariants over any number of generations, and runs that raise as witnesses |
| C185 The scores of GAFeatureSelection belong to the chromosomes they are listed with | partial | FeatureGA | featurize/site_stability.py: GAFeatureSelection.crossover, GAFeatureSelection.mutate | an invariant relating scores and features for crossover; every mutation as the counterexample |
| C186 GAFeatureSelection does not lose its best solution | partial | FeatureGA | featurize/site_stability.py: GAFeatureSelection.evolve, GAFeatureSelection.crossover, GAFeatureSelection.mutate | the leader followed through crossover by induction over the generations; two concrete runs of evolve show the loss |
| C187 Feature frequencies and homogeneity describe the population | partial | FeatureGA | featurize/site_stability.py: GAFeatureSelection.feature_frequencies, GAFeatureSelection.homogeneity | counts over the concatenated chromosomes and sortedness; populations without the last features as the counterexample |
| C188 get_site_index finds the atom that is missing | partial | SiteSelect | featurize/site_stability.py: get_site_index | the position test as a search over the atoms with the relative tolerance of numpy; all structures |
| C189 Cohesive energies and site stabilities are consistent | partial | SiteSelect | featurize/site_stability.py: Material.cohesive_energy, SiteFeaturizer.get_DFT_site_stability, SiteFeaturizer.select_random_sites | sums over the atoms, independent of the order of the elements; a changed reference table as the counterexample |
| C190 Random selections contain distinct sites of the images that are not excluded | partial | SiteSelect | featurize/site_stability.py: SiteFeaturizer.unique_sites, SiteFeaturizer.select_random_sites, SiteFeaturizer.select_specific_sites | the candidates as a list product, the draws as parameters; pigeonhole for the repeated sites |
| C191 Removing outliers removes the sites with that value and no others | partial | SiteSelect | featurize/site_stability.py: SiteFeaturizer.remove_outlier | removal by index as a fold; patterns of several outliers as counterexamples |
| C192 Cached feature tables describe the current sites | partial | SiteSelect | featurize/site_stability.py: SiteFeaturizer.site_features, SiteFeaturizer.normalized_site_features, SiteFeaturizer.refresh | the object as a state with caches; sequences of calls as counterexamples |
| C193 The pair distribution counts every pair once | proved | Distribution | utilities/distribution.py: pair_distribution, _distance_hist | histograms as counts over real distances; the bins shown to partition the interval, then finite sums over atoms and images |
| C194 Partial pair distributions add up | proved | Distribution | utilities/distribution.py: pair_distribution, _distance_hist | double counting over pairs of atoms, by element |
| C195 Positions, periodicity and self pairs of pair distributions | partial | Distribution | utilities/distribution.py: pair_distribution, pair_deviation, _distance_hist | inequalities for the positions; the unused argument and the diagonal of the matrix as counterexamples |
| C196 Sammon's error measures the change of distances | partial | Sammon | utilities/sammon.py: sammons_error | real distances with the infinities and NaN of the division kept; finite sums, reindexing by a permutation |
| C197 Clustering keeps rows and targets together | partial | Clustering | utilities/clustering.py: cluster_features, _cluster_split | the dictionaries as association lists with an invariant over the loop; the search for the nearest centroid by induction, kmeans2 as a parameter |
| C198 The CatMAP landscape holds the minimum energy for each adsorbate | partial | Catmap | api/catmap.py: catmap_energy_landscape | the loop over the candidates with an invariant (the entry is the first maximum so far); injectivity of joining without underscores |
| C199 Formulas written for Magpie name the compound | partial | Catmap | fingerprint/prototype.py: PrototypeFingerprintGenerator.write_proto_input | strings as character lists, induction over the sites |
| C200 The highest atoms are taken as the adsorbate only if they are it | partial | AdsFind | featurize/adsorbate_prep.py: z2ads_index | the heights as a parameter, argsort as any sorting permutation; the last entries of a sorted list dominate the rest |
| C201 Adsorbates found by layer or element are complete | proved | AdsFind | featurize/adsorbate_prep.py: layers2ads_index; featurize/adsorbate_prep.py: sym2ads_index | the selected sublist characterised by membership; permutations of atomic numbers |
| C202 Comparison with the clean slab finds the adsorbate | partial | AdsFind | featurize/adsorbate_prep.py: slab_positions2ads_index | the loop over the elements unfolded into blocks of the farthest atoms, each block compared with the adsorbate atoms of this element |
| C203 Reconstructed slabs are recognised | partial | AdsFind | featurize/adsorbate_prep.py: compare_slab_connectivity; featurize/adsorbate_prep.py: check_reconstructions | connectivity matrices over the integers; pointwise comparison, with counterexamples for other shapes |
| C204 Layers of a slab hold every atom once | partial | SlabLayers | featurize/slab_utilities.py: slab_layers | k-means as a parameter (any labels, one for each atom), set iteration as any permutation; partition lemma by induction over the labels, the NaN of 0/0 as failure of the comparison; a variance bound for points that lie far apart |
| C205 K-fold splits survive a file | partial | SplitFiles | cross_validation/k_fold_cv.py: write_split; cross_validation/k_fold_cv.py: read_split | the files as a map from names, arrays with their shapes; induction over the sequence of writes, names with different endings differ |
| C206 The hierarchy works with the split just made | partial | SplitFiles | cross_validation/hierarchy_cv.py: Hierarchy.split_index; cross_validation/hierarchy_cv.py: Hierarchy.load_split; cross_validation/hierarchy_cv.py: Hierarchy._write_split; learning_curve/learning_curve.py: hierarchy | the file system composed with the model of split_index (C03); the gap between half and all of the data as counterexample |
| C207 Subsets of the hierarchy hold the data that were stored | partial | SplitFiles | cross_validation/hierarchy_cv.py: Hierarchy.todb; cross_validation/hierarchy_cv.py: Hierarchy.get_subset_data; cross_validation/hierarchy_cv.py: Hierarchy.globalscaledata; cross_validation/hierarchy_cv.py: Hierarchy._get_index | the database model (C57) composed with split_index (C03) and the chunked fetch (C05); rows represented by their positions, permutations of uuids carried back to permutations of positions |
| C208 the bootstrap estimate of the prediction error | partial | RidgeSearch | regression/ridge_regression.py: RidgeRegression.bootstrap_calc, bootstrap_master, _get_bootstrap_samples, _bootstrap_ERR | `bootstrap_calc` with the samples as parameters and the regression of C38 per sample; uniqueness of the ridge minimum and the mean over the samples without the point; NaN for a point in every sample |
| C123 a Gaussian process trained on gradients reproduces values and slopes | partial | GPGrad | regression/gaussian_process.py: GaussianProcess.__init__, predict, update_data, _make_prediction; regression/gpfunctions/kernels.py: gaussian_kernel, gaussian_xx_gradients, gaussian_xxp_gradients | `GPGrad` models the object with gradients; the covariance of a training point is its row of the covariance (C46), its derivative the row of the derivative, so inverse times covariance gives back values and gradients; scaling by the chain rule; products and linear kernels refuted (LinAlgError) |
| C209 the uncertainty of a Gaussian process trained on gradients | partial | GPGrad | regression/gpfunctions/uncertainty.py: get_uncertainty; regression/gaussian_process.py: GaussianProcess.predict | joint covariance of training values, training gradients and the new point positive semidefinite (C106), Schur complement as in C42; the plain model of C42 on the value block; `constant_multi` raises |
| C210 updating a Gaussian process trained on gradients | partial | GPGrad | regression/gaussian_process.py: GaussianProcess.update_data, _update_lml | the state after an update compared with that of a new object; the length of the targets against the rows of the covariance |
| C211 the training error of a Gaussian process trained on gradients | partial | GPGrad | regression/gaussian_process.py: GaussianProcess.predict | entries of the two lists that are compared, in order |
| C212 the surrogate of MLNEB | proved | Surrogate | optimize/mlneb.py: train_gp_model, get_energy_catlearn | noise on the diagonal makes the covariance with gradients positive definite (C106); kernel rows tend to zero with the largest coordinate; shift of the targets by their maximum; Schur complement as in C209 |
| C213 the hyperparameters of MLMin | partial | Surrogate | optimize/mlmin.py: MLMin.run | a heap of dictionaries with references kept from one iteration to the next; induction over the iterations |
| C125 Gaussian processes do not influence one another | partial | Aliasing | regression/gaussian_process.py: GaussianProcess.__init__, update_data, optimize_hyperparameters; regression/gpfunctions/kernel_setup.py: prepare_kernels, list2kdict; regression/gpfunctions/log_marginal_likelihood.py: log_marginal_likelihood | a heap of kernel dictionaries and models that hold references to them; refinement of models as values by induction over the session, for references without sharing |
| C118 with scale_data the units of features and targets do not matter | partial | GPStationary, GPUnits | regression/gpfunctions/default_scale.py: ScaleData.train, test, rescale_targets; regression/gaussian_process.py: GaussianProcess.__init__, update_data, optimize_hyperparameters, predict | simulation: the states of the two models differ in the stored statistics only, induction over the history; mean and standard deviation under affine maps |
| C214 correlations of features with the target | partial | Correlation | utilities/utilities.py: target_correlation | the coefficients as cosines of two families of numbers (deviations from the mean, deviations of ranks, signs of differences over pairs): Cauchy-Schwarz with its case of equality, ranks in the order of the values; rows and columns by induction over the names and features |
| C215 features of a site | partial | SiteGeom | featurize/site_stability.py: Material.get_site_features; featurize/site_stability.py: Material.site_angles; featurize/site_stability.py: Material.site_distances | neighbours as a filtered set of atoms, features as sums and extrema over it; invariance because all quantities are functions of the distances (angles by the law of cosines) |
| C216 table of site features | partial | SiteTable | featurize/site_stability.py: SiteFeaturizer.site_features | invariant of the loop over the sites by induction: the columns are those of the first site followed by the blocks of the further elements, the rows those of the sites up to NaN; the replacement loop by induction over the columns; counterexamples for NaN, pure elements and eleven elements |
| C217 table of all possible sites | partial | SiteTable | featurize/site_stability.py: SiteFeaturizer.features_of_all_sites | the same invariant over the atoms of all images; counterexample when a later image has more elements |
| C218 vector of neighbour features | partial | NeighborFeatures | featurize/neighbor_matrix.py: neighbor_features, _get_features, property_matrix | CPython's set of small integers as a table of eight slots with its probing; invariant of the table by induction over the insertions (each element is found where it was put, no slot is lost); the sums under a permutation of the atoms; length by induction over the elements |
| C219 features of a material | partial | SystemFeatures | featurize/site_stability.py: Material.system_features; featurize/slab_utilities.py: stoichiometry | the composition as a map over the set of symbols in any order; sums over a permutation of the distinct symbols |
| C220 generated fractions have the values of the fractions | partial | FracEval | preprocess/feature_engineering.py: generate_features; preprocess/feature_engineering.py: _decode_key; preprocess/feature_engineering.py: generate_positive_features | `generate_features` with evaluation; the text of each fraction and Python's precedence of unary minus over `**` modelled; decoding shown to be the product for positive features by counting multiplicities, violations for negative and zero features and for inverses |
| C221 energies in a file reach the sites they name and nothing else changes | partial | SiteStore | featurize/site_stability.py: update_site_file; featurize/site_stability.py: Material.total_energy | `update_site_file`; fold over rows with the last matching row as invariant; three violations (reference table, missing element, stored energy) |
| C222 renewing the materials of sites keeps their energies | proved | SiteStore | featurize/site_stability.py: SiteFeaturizer._update_materials | `_update_materials` as a function returning the sites and the exception; positionwise relation by induction; only sites with a calculator of their own are touched |
| C223 written sites are found under their names | partial | SiteStore | featurize/site_stability.py: SiteFeaturizer.write_site_trajectories | `write_site_trajectories` over a model of the folder; invariants of the fold; violations for existing directories and shared numbers |
| C224 sites that are read have numbers of their own | partial | SiteStore | featurize/site_stability.py: SiteFeaturizer.traj_to_sites; featurize/site_stability.py: SiteFeaturizer.read_sites | `traj_to_sites` and `read_sites`; closed form of a sequence of reads; violations for mixed sources, `extend=False` and written sites |
| C225 learning curves can be computed with every documented option | partial | CurveOptions | learning_curve/learning_curve.py: hierarchy; learning_curve/learning_curve.py: feature_frequency; learning_curve/placeholder.py: placeholder.reg_feat_var; learning_curve/placeholder.py: placeholder.getstats | `hierarchy`, `feature_frequency` with all options, unbound locals as missing values; induction over keys |
| C226 a search of the genetic algorithm stops when it has stalled and leaves matching data | partial | GASearch | ga/algorithm.py: GeneticAlgorithm.search; ga/convergence.py: Convergence.no_progress; ga/io.py: _write_data, read_data | whole loop of `search` with criterion, file and number of steps; history of populations by induction, stopping by C13 |
| C227 an interrupted search of the genetic algorithm can be continued | partial | GASearch | ga/algorithm.py: GeneticAlgorithm.search; ga/io.py: read_data | simulation between the criterion of the interrupted and of the uninterrupted search; violations by restarted counts and Pareto ranks |
| C228 an emulation of active learning without a limit goes through all the data | partial | ALExhaust | active_learning/algorithm.py: ActiveLearning.test_acquisition; active_learning/algorithm.py: ActiveLearning.ensemble_test | number of rows and rounds after k iterations by induction; boundary of the number of rounds; both loops compared |
| C229 features selected by regression are those with the largest coefficients | partial | RegFit | regression/scikit_wrapper.py: RegressionFit.feature_select; regression/scikit_wrapper.py: RegressionFit._lasso | models of scikit-learn as parameters; order by absolute coefficients, first sufficient penalty, all error branches |
| C230 the prediction error requested from RegressionFit is returned | partial | RegFit | regression/scikit_wrapper.py: RegressionFit.feature_select; regression/cost_function.py: get_error | dictionary of `get_error` as a `defaultdict`; the key `average` is missing |
| C231 an ML-NEB calculation can be continued in its directory | partial | NebFiles | optimize/mlneb.py: MLNEB.__init__, eval_and_append, get_energy_catlearn; optimize/io.py: ase_to_catlearn, store_trajectory_neb | Model/NebFiles keeps the file of evaluated structures as a list, with both energies of a calculator; the restart is proved for every sequence of evaluations and every fresh start, and refuted for force_consistent=None with a free energy, for previous calculations, for an overwritten file and for a file of another calculation. |
| C232 each pass of ML-NEB starts from a path between the end points | partial | NebFiles | optimize/mlneb.py: MLNEB.run, create_ml_neb; optimize/io.py: store_trajectory_neb | Model/NebFiles keeps the file of predicted paths; induction over the passes with arbitrary moves of the inner images; refuted in sequential mode (a general statement for at least five images and a reachable state) and for a second call after convergence. |
| C233 the results of a converged ML-NEB describe the final model | partial | NebFiles | optimize/mlneb.py: get_results_predicted_path, ASECalc, MLNEB.run; optimize/io.py: store_results_neb | Model/NebFiles keeps the process inside the calculator of each image; the rows are computed in general and the mixture of the old energies with the new uncertainties is exhibited for every model that reproduces its data. |
| C234 an MLMin calculation can be continued from its trajectory file | partial | MLMinRestart | optimize/mlmin.py: MLMin.__init__, MLMin.run | Model/MLMinFiles adds the trajectory file to Model/MLMin; the restart is proved for all runs without repeated geometries from the lemmas of C54, and refuted for a restart from the last structure and for repeated geometries. |
| C235 Units of the features of a general Gaussian process | partial | GeneralGP | estimator/general_gp.py: GeneralGaussianProcess.train_gaussian_process, gaussian_process_predict; estimator/general_preprocess.py: GeneralPrepreprocess.process, transform | Model/GeneralGP chains the cleaning, the default kernels and any fit; both processed matrices are standardised and related by an increasing affine map in every column, which must be the identity, so that the kernels, the fit and every transformed test row agree; violated when a feature falls below the absolute tolerance of clean_variance in the other units. |
| C236 Predictions of a general Gaussian process belong to its last successful training | partial | GeneralGP | estimator/general_gp.py: GeneralGaussianProcess; estimator/general_preprocess.py: GeneralPrepreprocess | Model/GeneralGP keeps the two attributes separately; the state after a training is computed from process_spec; a training that fails when the process is made leaves the new cleaner beside the old process. |
| C237 A search of the genetic algorithm depends on the order of fitness values only | partial | GADraws | ga/algorithm.py: GeneticAlgorithm.search, _new_generation, _selection, _pareto_transform; ga/natural_selection.py: population_reduction, remove_duplicates; ga/convergence.py: Convergence.no_progress | Model/GADraws computes the parents of each generation from shuffles and draws; sorting commutes with an increasing map, so ranking, acceptance, selection, mating, reduction and the criterion agree step by step (induction on the generations); Pareto fronts by the same comparison of entries; violated with `accuracy`, whose decimals are absolute. |
| C238 Feature selection does not depend on the units of features and targets | partial | Predictors | ga/predictors.py: minimize_error, minimize_error_descriptors, minimize_error_time; ga/algorithm.py: _cross_validate, GeneticAlgorithm.search; regression/gaussian_process.py: GaussianProcess | Model/Predictors fits the process of ga/predictors.py with an optimiser that sees the stored (scaled) data; `init`, `optimize` and `predict` commute with a change of units (lemmas of C118), hence errors scale, sums over folds scale, and C237 gives the search; violated by a feature constant in a training set, which is not scaled. |
| C239 imputation fills exactly the features that are complete enough, from the training data | partial | Impute | preprocess/clean_data.py: clean_infinite | `clean_infinite` with an imputer that does what scikit-learn documents; entrywise description of both matrices; reduction to C18; violations for infinities, no imputable feature and empty columns |
| C240 clean_infinite leaves the matrices of the caller alone | partial | Impute | preprocess/clean_data.py: clean_infinite | the same model returns the caller's test matrix; frame condition and its violation |
| C241 The order of the features is immaterial to a Gaussian process | partial | GPRelations | regression/gpfunctions/covariance.py: get_covariance; regression/gpfunctions/kernels.py; regression/gaussian_process.py: GaussianProcess; regression/gpfunctions/default_scale.py: ScaleData | two models whose covariances agree under a selection of columns: statistics of columns are selected, covariances are equal entry by entry (sums over permuted lists of features with widths), so the stored inverses and all predictions agree; violated for quadratic kernels with several slopes. |
| C242 The amplitude of the covariance does not change predictions | proved | GPRelations | regression/gpfunctions/covariance.py: get_covariance; regression/gaussian_process.py: GaussianProcess.predict, predict_uncertainty; regression/gpfunctions/uncertainty.py: get_uncertainty | the fold over the kernels is linear in the added kernels; inverse of a multiple of a matrix; square roots. |
| C243 Scaled data do not depend on units, and scaling them again changes nothing | partial | ScalingUnits | preprocess/scaling.py: standardize, normalize, min_max, unit_length, target_standardize, target_normalize, target_center | location and spread of a column follow an affine change (means, deviations, extremes); generic theorem for the three functions by cases on test data and `local`; idempotence is the change of units by the scaling itself; violated for test values in a column constant among the training data. |
| C244 The ranking of candidates does not depend on the units of the target | partial | AcqUnits | active_learning/acquisition_functions.py: rank, optimistic, UCB, EI, PI, probability_density, proximity, optimistic_proximity, cluster | extremes of lists and arguments of the normal distribution under an affine change; list induction for `rank`; violated for `cluster`, whose quotients depend on the zero. |
| C245 Ridge regression does not depend on order, axes and units of the data | proved | RidgeFit, RidgeRelations | regression/ridge_regression.py: RidgeRegression.RR, predict, LOOCV, find_optimal_regularization | the regularised normal equations have one solution; the transformed coefficients satisfy the transformed equations. The search is followed step by step over extended numbers (infinities, NaN): a change of units shifts logarithms, so every grid is a multiple of the other one.; the whole call of `get_coefficients`: leave-one-out estimates depend on the products of the data points only (uniqueness of the hat matrix), singular values as zeros of a determinant; existence of the decompositions is proved |
| C246 A Gaussian process with the linear kernel is ridge regression | proved | RidgeRelations | regression/gaussian_process.py: GaussianProcess.predict; regression/ridge_regression.py: RidgeRegression.RR, predict | push-through identity between the two sizes of inverse, from the normal equations. |
| C247 Kernels of differences do not depend on the zero of the features | proved | GPStationary | regression/gpfunctions/kernels.py; regression/gpfunctions/covariance.py: get_covariance; regression/gaussian_process.py: GaussianProcess | covariances are equal entry by entry, so Gram matrices, inverses and determinants are; the same for covariances with gradients. |
| C248 The learning curve of the hierarchical cross-validation averages each level on its own | partial | HierarchyCurve | cross_validation/hierarchy_cv.py: Hierarchy.transform_output, Hierarchy.split_predict | the loops are unfolded level by level: within a level all results fall in one group, and the groups of different levels differ when every subset has at least three members; a witness with subsets of two shows the mixing. |
| C249 the logarithmic error counts every pair | partial | LogErrors | regression/cost_function.py: get_error | Model of the metric 'log' with nan, infinity and numbers as results (`Err.logErrors`). Proved by comparing the logarithms for predictions that are not negative and targets above -1; violated because a target below -1 gives nan, which nanmean leaves out, and negative predictions are replaced by zero. |
| C250 Refining a lasso penalty keeps the number of features | proved | Refine | learning_curve/feature_selection.py: feature_selection.alpha_refinment, feature_selection.alpha_finder | The lasso fit is a parameter (number of selected features for a penalty); proved by induction on the steps with bounds on the inspected grid, which decreases, so that the first hit is the largest. |
| C251 The history of GAFeatureSelection describes the populations it went through | proved | FeatureGARun | featurize/site_stability.py: GAFeatureSelection.evolve, mean_population_fitness, max_population_fitness, homogeneity, feature_frequencies | Model/FeatureGARun adds the records to the loop of evolve; the loop invariant relates row j to the population after j generations (evolve of C184), a concatenation lemma and the renumbering give the statement on two calls. |
| C252 Screening does not depend on the units and zeros of features and target | partial | ScreeningUnits | preprocess/feature_elimination.py: FeatureScreening.screen; preprocess/feature_elimination.py: FeatureScreening._get_correlation | `Model/ScreeningExt.lean` gives the correlation and the tolerance `numpy.allclose(d, d[0])`; with every constant column remaining recognised, all results of `screen` are transported along the affine changes (`C252_units_partial`). Violated in general: a zero far away (`C252_zero_violated`) or a small unit (`C252_unit_violated`) makes a varying feature pass for constant. |
| C253 Outlier removal does not depend on the units, zero, sign and order of the data | proved | CleanUnits | preprocess/clean_data.py: remove_outliers | The masks of `removeOutliers` are expressed as one filter on pairs; the median commutes with affine maps and reflections and depends only on the multiset (`C253_units`, `C253_sign`, `C253_order`). |
| C254 Screening does not depend on the order of the data | partial | ScreeningOrder | preprocess/feature_elimination.py: FeatureScreening.screen; preprocess/feature_elimination.py: FeatureScreening._get_correlation | Coefficients are sums and counts over data or pairs of data, which are carried over by a bijection (for Kendall via ordered pairs); `screen` depends on the columns only through coefficients and the test for constants. The test is relative to the first row (`numpy.allclose(d, d[0])`), so the claim is violated in general. |
| C255 Cleaning does not depend on the units, zeros and order of the data | partial | CleanInvariance | preprocess/clean_data.py: clean_variance; preprocess/clean_data.py: clean_skewness; preprocess/clean_data.py: clean_infinite | Central moments are transported by affine maps and permutations (`Model/CleanExt.lean` gives the skewness), and the selection of columns by maps of the columns. In full for zeros, signs, skewness and order; for units only when the deviation of a varying feature is above the tolerance 1e-8 of `numpy.isclose` in both units, otherwise violated. |
| C256 The kernels for categories and with scaled features are covariance functions | partial | KernelAA | regression/gpfunctions/kernels.py: AA_kernel; regression/gpfunctions/kernels.py: scaled_sqe_kernel | `Model/KernelAA.lean`. The entry is a sum of exponentials of distances, positive semidefinite by the lemma on the Laplacian kernel of one dimension when (1-l)/(c-l) ≤ l (`C256_covariance_partial`). Violated: the numbers by which categories are called matter, outside that range the matrix is not a covariance, and scaled_sqe_kernel raises TypeError for all arguments. |
| C257 The variances reported by catlearn_pca are the shares of variance along its components | partial | Pca | preprocess/feature_extraction.py: catlearn_pca | Model/Pca models `catlearn_pca` as a whole; the decomposition is a parameter and the theorems assume of it only that it is a singular value decomposition (orthonormal vectors on both sides, decreasing singular values). The sum of squares along a left vector is the square of its singular value, and the squares add up to the sum of squares of the data; the reported share is therefore exact if the non-zero singular values are equal and strictly too small otherwise. |
| C258 Principal components treat test data like training data | partial | Pca | preprocess/feature_extraction.py: catlearn_pca; preprocess/feature_extraction.py: pca; preprocess/feature_extraction.py: pls; preprocess/feature_extraction.py: spca; preprocess/clean_data.py: clean_variance | The whole function is shown to be the application of one map, which depends on the training data only, to every row (lemma `whole_rows`, for all options). The missing entry of the `defaultdict` that `clean_variance` returns is modelled as an empty list, which is why the call without test data fails. The scikit-learn models are parameters with a `fit` and a `transform`. |
| C259 Engineered features of a row do not depend on the other rows | partial | FeatEngRows | preprocess/feature_engineering.py: single_transform, get_order_2, get_order_2ab, get_div_order_2, get_ablog | The closed forms proved for C21, C22 and C82 give every column as an elementwise operation on columns of the input; the shift is the only quantity that is taken from a whole column. In full for products, powers, ratios and squares, for equal shifts otherwise; where the shifts differ, injectivity of root and logarithm shows that the values differ. |
| C260 Screening does not depend on the order of the features | partial | ScreeningFeatures | preprocess/feature_elimination.py: FeatureScreening.screen; preprocess/feature_elimination.py: FeatureScreening.eliminate_features; regression/scikit_wrapper.py: RegressionFit.feature_select | `screen` without random features is the descending order of the coefficients; two sorted permutations of the same numbers are equal when the order is strict, and the removed columns are carried over by the permutation. With equal coefficients the stable order keeps the given order, which is the violation. |
| C261 Cleaning follows a reordering of the features | proved | CleanFeatures | preprocess/clean_data.py: clean_variance; preprocess/clean_data.py: clean_skewness; preprocess/clean_data.py: clean_infinite | The flags of the moved features are the moved flags; the positions of the kept features correspond by the permutation, which gives the permutation of the kept columns; the same selection is applied to every array (`select_follows`). |
| C262 A Material answers as a new one, whatever was asked before | partial | SiteState | featurize/site_stability.py: Material.get_site_features; featurize/site_stability.py: Material.site_angles; featurize/site_stability.py: Material.site_distances; featurize/site_stability.py: Material.create_defect | `Model/SiteState.lean` keeps the connection matrix and the chosen site as state. Invariant over the calls: the matrix is the one of `__init__`, whose diagonal is already zero, so that the assignment to the row does nothing (`C262_history_partial`, `C262_values_partial`). Violated for an unchosen site and for moved atoms. |
| C263 Feature elimination does not depend on the order of the features | partial | EliminationOrder | preprocess/greedy_elimination.py: GreedyElimination.greedy_elimination; preprocess/importance_testing.py: ImportanceElimination.importance_elimination | Induction on the rounds with the characterisation of a round proved for C24: the eliminated features followed by the sorted survivors are sorted by score, and two sorted permutations without ties are equal. A constant error gives the violation. |
| C264 After normalize_features the bags of atoms and bonds accept every structure of the data | partial | GenAttributes | featurize/setup.py: FeatureGenerator.normalize_features, _get_atom_types, _get_ads_atom_types, return_vec; fingerprint/adsorbate.py: AdsorbateFingerprintGenerator.bag_edges_all, bag_edges_ads, bag_edges_chemi, bag_atoms_ads | `Model/GenAttributes.lean` keeps the attributes of a generator as state. The elements found contain those of every structure given (C142), so that the bags count (C63, C163, C166); no call creates `ads_atom_types` (invariant over the calls), hence the violation. With the attribute of `_get_ads_atom_types`, `bag_edges_all` succeeds for all structures. |
| C265 A prediction depends on no other test point | proved | GPBatch | regression/gaussian_process.py: GaussianProcess.predict, _make_prediction, _fixed_basis; regression/gpfunctions/covariance.py: get_covariance; regression/gpfunctions/uncertainty.py: get_uncertainty; estimator/general_preprocess.py: GeneralPrepreprocess.transform | `Model/GPBatch.lean` has the matrices of the code: the loop over the kernels on whole matrices, `ktb·(cinv·y)`, the diagonal and the `einsum`. `C265_matrices` shows that this is the pointwise `predict` of `Model/GP` (refinement), from which the independence follows (`C265_pointwise`, `C265_append`); `C265_basis` restricts the matrices of `_fixed_basis` to some of the points. |
| C266 connections and distributions of particles are those of the element they are reported for | partial | ParticleExt | fingerprint/particle.py: ParticleFingerprintGenerator.connections_vec; fingerprint/particle.py: ParticleFingerprintGenerator.distribution_vec | neighbour lists and tallies of ASE as loops; closed form of every block by induction over the atoms, hence sums, invariance under permutations of the atoms, and the blocks of one and two elements |
| C267 columns of rdf_vec mean the same for all structures | partial | ParticleExt | fingerprint/particle.py: ParticleFingerprintGenerator.rdf_vec | product over the elements in the order of the set, with the radial distribution function as a parameter; index arithmetic by induction; lengths and set orders as negations |
| C268 A minimisation depends neither on the place of the structure nor on the zero of the energy | proved | MLMinMoved | optimize/mlmin.py: MLMin.__init__, run, fit; optimize/constraints.py: apply_mask; optimize/functions_calc.py | relation of two runs: moved masked positions give equal finite differences and equal steps (positions moved, velocities equal), scores and the chosen point agree, induction over the passes; the fit with C247_gradients |
| C269 A search for a saddle point does not depend on where the structures are nor on the zero of the energy | proved | MLNEBMoved | optimize/mlneb.py: MLNEB.run; optimize/mlneb.py: get_fmax; optimize/mlneb.py: eval_and_append | relation of two runs: choices compare only energies with each other (argmax of shifted lists) and uncertainties, so that the same image is chosen; induction over the passes; the largest force through the rows of three |
| C270 A model of values and gradients with one width does not depend on the axes of the features | proved | GPRigid | regression/gaussian_process.py: GaussianProcess; regression/gpfunctions/kernels.py: gaussian_xx_gradients; regression/gpfunctions/kernels.py: gaussian_xxp_gradients; optimize/mlneb.py: train_gp_model | the covariance of turned data is B K Bᵀ with B the identity for values and the matrix for each gradient, so determinant, positive definiteness, inverse, quadratic form and predictions follow; the surrogate composes this with C212_energy_zero, the optimiser being a function of determinants and quadratic forms |
| C271 The forces on the surrogate are the forces of its energy | proved | SurrogateForces | optimize/mlneb.py: ASECalc.calculate; optimize/mlneb.py: train_gp_model; optimize/mlmin.py: MLMin.run | the prediction is three times continuously differentiable in the features (induction over the kernels), central differences by the mean value inequality three times, the mask by C53_forces |
| C272 Optimising the hyperparameters does not lower the likelihood, and the likelihood reported is that of the model | partial | GPOptimize | regression/gaussian_process.py: GaussianProcess.optimize_hyperparameters; regression/gpfunctions/log_marginal_likelihood.py: log_marginal_likelihood; regression/cost_function.py: _cost_function | composition of the loss, the list of hyperparameters (numbers after those of the kernels are not read) and C114; for the losses 'rmse' and 'absolute' the reported value is always zero (C49), a negation with a witness |
| C273 A parameter that was entered can be referred to | partial | Database | utilities/database_functions.py: FingerprintDB.parameter_entry; utilities/database_functions.py: FingerprintDB.get_parameters | case analysis of the insertion, positions in a list without duplicates; the first parameter without a symbol, and a number that is taken as symbol, as negations |
| C274 Far from its data a Gaussian process knows nothing | proved | GPLimits | regression/gaussian_process.py: GaussianProcess.predict; regression/gpfunctions/covariance.py: get_covariance; regression/gpfunctions/kernels.py | lower bounds for sums over columns by induction, limits of exponentials, products and sums by induction over the kernels, continuity of the linear and quadratic forms; C42 for the bound |
| C275 Predictions and uncertainties are continuous in the features | proved | GPLimits | regression/gaussian_process.py: GaussianProcess.predict; regression/gpfunctions/kernels.py; regression/gpfunctions/uncertainty.py | composition of continuous functions, induction over columns and kernels; C42 for the sign under the square root |
| C276 Repeated measurements are averages with less noise | proved | GPRepeat | regression/gaussian_process.py: GaussianProcess.__init__; regression/gaussian_process.py: GaussianProcess.predict; regression/gpfunctions/covariance.py: get_covariance | the selection matrix of the copies intertwines the two covariance matrices, so it intertwines their inverses; positive definiteness carries over by congruence; positions in concatenated lists by an equivalence |
| C277 Ridge regression of repeated, redundant and irrelevant data | proved | RidgeData | regression/ridge_regression.py: RidgeRegression.RR, predict | `RR` on a new object with any SVD routine meeting its contract. By the normal equations, written feature by feature, and their unique solution, for data indexed by pairs (repetition, point), with one more row, and with one more column. |
| C278 More regularisation fits the training data less and keeps coefficients closer to the prior | proved | RidgeData | regression/ridge_regression.py: RidgeRegression.RR, predict | from the unique minimiser of the cost for both regularisations; the limit from the bound by comparison with a square root. |
| C279 What one more measurement changes in a Gaussian process | proved | GPSequential | regression/gaussian_process.py: GaussianProcess.__init__, predict; regression/gpfunctions/uncertainty.py: get_uncertainty | on the model of `GaussianProcess` without data scaling: the covariance of the enlarged training set is a bordered matrix, whose inverse is given by the Schur complement (proved here from positive definiteness); predictions and variances follow for every point. |
| C280 The likelihood is the product of the densities of the measurements around what was predicted before them | proved | GPSequential | regression/gaussian_process.py: GaussianProcess.__init__, predict, _update_lml; regression/gpfunctions/log_marginal_likelihood.py: log_marginal_likelihood | the determinant of the bordered matrix is the old one times the Schur complement, and its quadratic form the old one plus a square; sequences by induction from the end. |
| C281 What the regularisation of a Gaussian process does | proved | GPNoise | regression/gaussian_process.py: GaussianProcess.__init__, predict; regression/gpfunctions/covariance.py: get_covariance; regression/gpfunctions/uncertainty.py: get_uncertainty | the weights of the training data minimise the squared error plus the regularisation times a quadratic form, and comparing the two minimisers gives the order of the errors; the variances from the order of the inverses of positive definite matrices; the limit from an explicit bound. |
| C282 The order of the training data is immaterial to a model of values and gradients | proved | GPGradRelations | regression/gaussian_process.py: update_data; regression/gaussian_process.py: predict; regression/gpfunctions/covariance.py: get_covariance; regression/gpfunctions/uncertainty.py: get_uncertainty | covGrad_among and covRow_among: covariances of points chosen among others are the entries of the larger covariance, for every kernel and combination. A permutation gives an equivalence of positions, so determinant, definiteness, means and variances agree (postMean_reindex); scaling parameters are symmetric functions of the data (scalOf_perm). Errors are compared branch by branch (finish_eq). |
| C283 Further points with gradients never increase the uncertainty | proved | GPGradRelations | regression/gaussian_process.py: update_data; regression/gaussian_process.py: predict; regression/gpfunctions/uncertainty.py: get_uncertainty; regression/gpfunctions/kernels.py: gaussian_kernel | The variance is the minimum of a quadratic form over weights (postVar_le_form); the weights of the smaller model, extended by zero, are admissible for the larger one. No condition on the kernels is needed, as a model is only made if its covariance is positive definite. |
| C284 Predictions of a model of values and gradients are linear in values and gradients | proved | GPGradRelations | regression/gaussian_process.py: update_data; regression/gaussian_process.py: predict; regression/gaussian_process.py: _make_prediction | The stored vector of values and gradients is linear in them (vec_combine), and the prediction is a product with a matrix that does not depend on them. |
| C285 A model of values and gradients far from its data | proved | GPGradLimits | regression/gaussian_process.py: predict; regression/gpfunctions/kernels.py: gaussian_xxp_gradients; regression/gpfunctions/covariance.py: get_covariance; regression/gpfunctions/uncertainty.py: get_uncertainty | A Gaussian times a power of the scaled distance tends to zero along the filter of complements of compact sets; derivatives are bounded by such terms. Every entry of the row of covariances has a limit for each kernel, sums and products of kernels preserve it, and predictions and variances are continuous functions of the row. Scaling of the features is a homeomorphism. |
| C286 A point that a model of values and gradients predicts correctly teaches it nothing | proved | GPGradSequential | regression/gaussian_process.py: update_data; regression/gaussian_process.py: predict; regression/gpfunctions/kernels.py: gaussian_xx_gradients; regression/gpfunctions/kernels.py: gaussian_xxp_gradients | The weights of the old model, extended by zero, solve the enlarged system: rows of old data because the old block is the old covariance, the row of the new value because it is the row of covariances of a prediction, the rows of the new slopes because they are the derivatives of that row (covRow_deriv). The enlarged covariance is invertible, so these are the weights. |
| C287 Features with very large widths or with the same value everywhere do not influence a Gaussian process | proved | GPWidths | regression/gaussian_process.py: GaussianProcess.predict; regression/gpfunctions/kernels.py: gaussian_kernel; regression/gpfunctions/covariance.py: get_covariance | The entries of the covariance as functions of the factor on the widths converge to those of the kernels without the features, the covariance matrix and its inverse with them, hence prediction and variance (C287_widths). Where a feature has one value its terms vanish, so the covariances are equal (C287_constant). |
| C288 Voronoi fingerprints belong to the structures in their order | partial | Magpie | fingerprint/voro.py: VoronoiFingerprintGenerator.write_voro_input; fingerprint/voro.py: VoronoiFingerprintGenerator.generate | The loop of write_voro_input is unrolled with the invariant that no file has the name of a later structure (the digits before the first hyphen are the number). The join selects for each structure the rows of its number, at most one, so that the permutation of Magpie's rows does not matter. If Magpie leaves a structure out, the rows after it move up and the number is dropped (C288_rows_violated). |
| C289 Prototype fingerprints describe the elements on the sites | partial | Magpie | fingerprint/prototype.py: PrototypeSites; fingerprint/prototype.py: PrototypeFingerprintGenerator.write_proto_input; fingerprint/prototype.py: PrototypeFingerprintGenerator.generate_all | The insertion sort of the keys is the order of the sorted dictionary (uniqueness of sorted permutations); rows by induction over the structures; the join as in C288. In Python 3 the keys of a dictionary cannot be sorted in place and no PrototypeSites can be made (C289_sites_violated); the default properties=[] is always refused (C289_default_violated). The digits 1 lost from formulas are C199. |
| C290 Expected improvement, probability of improvement and probability density fit together | partial | AcqRelations | active_learning/acquisition_functions.py: EI; active_learning/acquisition_functions.py: PI; active_learning/acquisition_functions.py: probability_density | The scaled gain function u*G(m/u) with G' = cdf, as in C35; bounds from 0 <= G(-z) = G(z) - z and pdf <= pdf(0); limits of the distribution function by monotone convergence. Entries of uncertainty zero are modelled with the infinities and NaN of numpy: 0/0 makes EI and PI NaN for a certain candidate with the best value (C290_certain_violated). |
| C291 How much predictions and uncertainties can change from one point to another | proved | GPNear | regression/gaussian_process.py: GaussianProcess.predict; regression/gpfunctions/uncertainty.py: get_uncertainty; regression/gpfunctions/kernels.py: gaussian_kernel | The covariance of the training points and two further points is positive semidefinite, with the noise on the training block; its quadratic form at the weights of the predictor bounds the reduction of the variance of any combination of the two values, so that the posterior covariance is positive semidefinite (Cauchy-Schwarz for the uncertainties) and the prediction, a product with the inverse covariance, obeys Cauchy-Schwarz for that inverse. |
| C292 What the regularisation does to a model of values and gradients | proved | GPGradNoise | regression/gaussian_process.py: GaussianProcess.__init__; regression/gaussian_process.py: GaussianProcess.predict; regression/gpfunctions/covariance.py: get_covariance; regression/gpfunctions/uncertainty.py: get_uncertainty | Predictions and slopes at the training points are the covariance without regularisation times the weights; the weights minimise a penalised sum of squares, hence monotone errors; larger matrices have smaller inverses, hence monotone uncertainties; the weights with regularisation are shorter than those without because covariance and inverse commute. |
| C293 Structures that were evaluated are certain for the surrogate of MLNEB, and none is more certain than the noise | proved | SurrogateCertain | optimize/mlneb.py: train_gp_model; optimize/mlneb.py: get_results_predicted_path; optimize/mlneb.py: MLNEB.run | The variance is the minimum of a quadratic form over weights: with the weight one at the evaluated structure it is twice the noise; without the noise it is still nonnegative, since the covariance of the Gaussian kernel with one more point is positive semidefinite. The kernels of the trained surrogate are those of the minimiser. The convergence test of the loop is read off the model of MLNEB.run. |
| C294 The name of a composition tells the composition and a composition has one name | partial | SiteNames | featurize/site_stability.py: composition_name; featurize/slab_utilities.py: stoichiometry | A name is read back: every element begins with the only capital letter of its part, digits follow, and the decimal digits tell the number; hence equal names mean equal lists of elements and counts. The order of the set is a parameter: reversed, it gives another name, which refutes the second half for every structure of two elements. |
| C295 The energy of every reference file is found under the symbols of its atoms | partial | SiteNames | featurize/site_stability.py: traj_to_reference_dict | The loop is a fold over the files with the dictionary of the model; keys are read back like names, runs of equal symbols expanded. Two files with the same symbols refute the claim; it holds if such files agree on the energy. |
| C296 How much a model of values and gradients can change from one structure to another | proved | GPGradNear | regression/gaussian_process.py: GaussianProcess.predict; regression/gpfunctions/uncertainty.py: get_uncertainty; optimize/mlneb.py: train_gp_model; optimize/mlneb.py: get_results_predicted_path | The covariance of values and slopes at the training points and the values at two further points is positive semidefinite; as for C291 this bounds every combination of the two values. For the surrogate the noise kernel is part of the noise of the data and adds the same to both variances, which only brings their roots closer. |
| C297 Repeated values and gradients are averages with less noise | proved | GPGradRepeat | regression/gaussian_process.py: GaussianProcess.__init__; regression/gaussian_process.py: GaussianProcess.predict; regression/gpfunctions/covariance.py: get_covariance | The matrix that copies values and gradients intertwines the covariance of the copies with that of the points with less noise, so that both inverses do; without noise kernels the covariance depends on the coordinates of the points only. |
| C298 Units of a model of values and gradients do not matter if everything is converted | partial | GPGradUnits | regression/gaussian_process.py: GaussianProcess.__init__, update_data, predict; regression/gpfunctions/covariance.py: get_covariance; regression/gpfunctions/kernels.py: gaussian_xx_gradients, linear_kernel, constant_multi_kernel, noise_multi_kernel; regression/gpfunctions/uncertainty.py: get_uncertainty | In the new units the covariance is the old one with rows and columns multiplied by the factor of a value or of a slope, kernel by kernel; so is its inverse by the inverse factors, and the posterior is that of the old units. The regularisation is added to values and slopes alike, which refutes the claim: for one point no regularisation in the new units gives the old predictions. It holds without regularisation, and with it where lengths keep their unit. |
| C299 The order of the features is immaterial to a model of values and gradients | proved | GPGradFeatures | regression/gaussian_process.py: GaussianProcess.__init__, update_data, predict; regression/gpfunctions/covariance.py: get_covariance; regression/gpfunctions/kernels.py: gaussian_xx_gradients, linear_kernel, constant_multi_kernel, noise_multi_kernel; regression/gpfunctions/uncertainty.py: get_uncertainty; regression/gpfunctions/default_scale.py: ScaleData | The covariance in the new order is the old one with rows and columns renumbered, kernel by kernel; the scaling of the data is renumbered alike, and posterior mean and variance do not depend on the numbering. |
| C300 Coordinates that never change can be left out of a model of values and gradients | proved | GPGradFeatures | regression/gaussian_process.py: GaussianProcess.__init__, update_data, predict; regression/gpfunctions/covariance.py: get_covariance; regression/gpfunctions/kernels.py: gaussian_xx_gradients, noise_multi_kernel; optimize/constraints.py: apply_mask | Slopes along a coordinate without differences are uncorrelated with all values and other slopes, so that the covariance consists of two blocks, one of which is that of the model without the coordinate; the covariances with the new point are zero on the other block. |
| C301 The amplitude of the covariance of values and gradients does not change predictions | proved | GPGradAmplitude | regression/gaussian_process.py: GaussianProcess.__init__, update_data, predict; regression/gpfunctions/covariance.py: get_covariance; regression/gpfunctions/uncertainty.py: get_uncertainty | The covariance, its rows for new points and the prior variance are multiplied by the same number, kernel by kernel, which cancels in the posterior mean and remains in the variance; positive definiteness and the other conditions of the constructor do not change. |
| C302 Gradients that are known only roughly do not influence the model | proved | GPGradForget | regression/gaussian_process.py: GaussianProcess.__init__, update_data, predict; regression/gpfunctions/kernels.py: noise_multi_kernel; regression/gpfunctions/uncertainty.py: get_uncertainty | With slopes divided by their noise, the covariance has a limit of two blocks: that of the model of the values, and a multiple of the identity. The inverse is continuous there, and a new point is in the limit uncorrelated with the second block; the first block is shown to be the covariance of the model without gradients. |
| C303 A training point far from all others does not influence predictions | partial | GPFar | regression/gaussian_process.py: GaussianProcess.__init__, update_data, predict; regression/gpfunctions/kernels.py: gaussian_kernel, laplacian_kernel, sqe_kernel; regression/gpfunctions/default_scale.py: ScaleData | The change of the model by one more point is known exactly (C279): it is proportional to the covariance of the far point with the test point given the data, which vanishes. With scale_data the far point dominates the standard deviation of the features; the bound of C291 on the change between two points then shows that two different predictions become equal. |
| C304 Errors of the targets of a Gaussian process are not amplified | partial | GPErrors | regression/gaussian_process.py: GaussianProcess.predict; regression/gpfunctions/covariance.py: get_covariance | The predictions at the training points are the covariance without noise times the solution of the system with it; the sum of squares of the latter, expanded, contains that of the former. At other points the Cauchy-Schwarz inequality of the inverse covariance is used. One target: the weight of a point on itself is one minus the noise times a diagonal entry of the inverse. With scale_data a model of three points with a product of linear kernels is solved by hand. |
| C305 Errors of the targets of ridge regression are not amplified | proved | RidgeErrors | regression/ridge_regression.py: RidgeRegression.RR; regression/ridge_regression.py: RidgeRegression.predict | The difference of two solutions solves the normal equations of the difference of the targets without a prior; multiplied by the solution they state an energy balance from which both bounds follow. |
| C306 Penalties of more data, in other coordinates and at other points | proved | Penalty | utilities/penalty_functions.py: PenaltyFunctions.penalty_close; utilities/penalty_functions.py: PenaltyFunctions.penalty_far | Both penalties are functions of the smallest distance to the training data, which is monotone in the data, scales with the coordinates and changes by at most the distance of two points (triangle inequality). |
| C307 Errors of values and gradients are not amplified | proved | GPGradErrors | regression/gaussian_process.py: GaussianProcess.predict; regression/gpfunctions/covariance.py: get_covariance | As C304, with the covariance of values and gradients; the list train_prediction is shown to be the product of the covariance without noise with the weights, values first. |
| C308 The test potentials have the minima they are known for | proved | PotentialMinima | optimize/functions_calc.py: Rosenbrock; optimize/functions_calc.py: Himmelblau; optimize/functions_calc.py: GoldsteinPrice; optimize/functions_calc.py: MultiModal; optimize/functions_calc.py: MullerBrown | Goldstein-Price is a product of a polynomial in x + y and one in 2x - 3y; both are bounded below by a square times a positive quadratic, and their derivatives are factored. The other energies are sums of squares or of bounded exponentials. |
| C309 How large the log marginal likelihood can be, and what it does with the unit of the targets | proved | GPEvidence | regression/gaussian_process.py: GaussianProcess._update_lml; regression/gpfunctions/log_marginal_likelihood.py: log_marginal_likelihood | The eigenvalues of a positive semidefinite matrix plus s on the diagonal are at least s, so its determinant is at least s^n; the quadratic form of the targets is not negative. For the unit the covariance is c^2 times the old one. |
| C310 Errors of ridge regression when a point is left out are not smaller than training errors | proved | RidgeLoo | regression/ridge_regression.py: RidgeRegression.RR; regression/ridge_regression.py: RidgeRegression._LOOCV | The fit without a row solves the normal equations of all rows when the target of the row is replaced by its prediction; C305 then bounds the change when the target is put back, and C39 connects the closed form. |
| C311 The effective number of parameters is at most the number of data and falls with the regularisation | proved | RidgeParams | regression/ridge_regression.py: RidgeRegression.RR | The number is the sum of W/(W + omega2) over the squared singular values W, and the trace of the hat matrix, whose diagonal entries h satisfy h^2 <= h. |
| C312 Error statistics in other units, of parts of the data, and against a third set of values | proved | ErrorUnits | regression/cost_function.py: get_error | Sorting, means and square roots commute with the multiplication by a number that is not negative; sums over a concatenation are sums of sums; the triangle inequality by induction over the lists. |
| C313 The error of a Gaussian process at a training point that is left out | proved | GPLoo | regression/gaussian_process.py: GaussianProcess.predict; regression/gaussian_process.py: GaussianProcess.update_data | The point is moved to the end by C116, where C279 gives mean and variance after one more point; the rest is algebra with the sum of variance and squared regularisation. |
| C314 The error of a model of values and gradients at a training point that is left out | proved | GPGradLoo | regression/gaussian_process.py: GaussianProcess.predict; regression/gpfunctions/covariance.py: get_covariance | By C286 the model of the others predicts as the model of all points with its own prediction in place of the data of the point; the difference of the data is then at one point, and the angle follows from the covariance being positive semidefinite. C282 moves the point to the end. |
| C315 A larger kappa explores more | partial | AcqExplore | active_learning/acquisition_functions.py: UCB; active_learning/acquisition_functions.py: rank | The two inequalities between the two best candidates, added and subtracted; the bound on kappa is the largest of finitely many quotients. For 'max' the code scores as for 'min' (C34), so the part on predictions fails. |
| C316 A Gaussian process with a constant kernel only predicts the shrunken mean of the targets | proved | GPConstant | regression/gaussian_process.py: GaussianProcess.predict; regression/gpfunctions/kernels.py: constant_kernel | The weights of the data are (target - prediction)/r^2, which solves the equations of the covariance; predictions and variances are then sums over equal terms. |
| C317 A linear and a constant kernel are ridge regression with an intercept | proved | GPIntercept | regression/gaussian_process.py: GaussianProcess.predict; regression/gpfunctions/kernels.py: linear_kernel; regression/gpfunctions/kernels.py: constant_kernel; regression/ridge_regression.py: RidgeRegression.RR | The two kernels add up to the scalar product of the extended features, so C247's transport of models with equal covariance and C246 apply. |
| C318 A Gaussian process of one training point | proved | GPSingle | regression/gaussian_process.py: GaussianProcess.predict; regression/gpfunctions/kernels.py: gaussian_kernel | The covariance is one number, so that the inverse is a quotient; the rest is monotonicity of the exponential. |
| C319 Lists of kernels that stand for the same covariance | proved | GPKernelList | regression/gpfunctions/covariance.py: get_covariance; regression/gaussian_process.py: GaussianProcess | The entries of the covariance are folded over the list: sums may be permuted, equal terms merged, zero terms dropped; equal covariances give equal models by the transport lemma of C241. |
| C320 Lists of kernels that stand for the same covariance of values and gradients | proved | GPGradKernelList | regression/gpfunctions/covariance.py: get_covariance; regression/gaussian_process.py: GaussianProcess | The three covariances are folded over the list as in C319; lists for which all three agree give the same inverse, predictions and variances. |
| C321 A noise kernel is a regularisation that counts in the uncertainty | proved | GPGradNoiseKernel, GPNoiseKernel | regression/gpfunctions/kernels.py: noise_multi_kernel; regression/gpfunctions/covariance.py: get_covariance; regression/gpfunctions/uncertainty.py: get_uncertainty | The noise is a multiple of the identity in the covariance of the training data, zero in that with new points, and one more term in the variance of a new point; the rest is equality of the models. |

## Findings: where the code does not do what the property says

Each line is a theorem about the model of the unchanged code. For every one the property is stated the way a
user would expect it, and the theorem proves a concrete counterexample (or a general law) that contradicts it.

* `C05_fetch_violated` – C05 is violated: when the number of requested ids is a multiple of 999 above 999, the last chunk is empty and the fetch raises `ValueError`, although every id is present in the table.
* `C06_population_size_violated` – C06 is violated when an accuracy is given: individuals with the same rounded fitness are removed and not replaced, so the population can be smaller than `population_size` (see also C72).
* `C07_elitism_dedup_violated` – C07 is violated in the first generation when an accuracy is given: of two individuals of equal rounded fitness the first is kept even if it is worse, so the best fitness can decrease.
* `C08_selection_favours_fitter_violated` – C08 is violated, for every population: of two individuals the *less* fit one is always the more likely to be selected by a call of `_selection`. All the shuffles and all the draws on a grid of `M` values in [0, 1) are equally likely outcomes (`M = 2 ^ 53` for `random.random`), and strictly fewer of them select the fitter individual.
* `C09_probability_remove_violated` – C09 is violated by `probability_remove`: with draws in [0,1) it can switch on a feature that the parent does not have.
* `C12_pareto_rank_violated` – C12 is violated by failed individuals: one whose fitness is `-inf` in every objective is ranked above (0) an individual that strictly dominates it (-1), so it survives in preference to it.
* `C17_target_scaling_violated` – C17 is violated for all constant target lists: every scaled target is nan.
* `C19_clean_variance_violated` – C19 is violated: a column that is not constant, here `0, 1e-9`, is removed.
* `C20_remove_outliers_violated` – C20 is violated: when all targets are equal (so every one of them is the median) everything is removed, whatever `con` and `dev` are.
* `C22_ratio_labels_violated` – C22 is violated for every number `m ≥ 1` of features and all their values: the last label names the ratio of the last feature with itself, the last column is zero.
* `C26_meta_schedule_violated` – C26 is violated for the metadata: it is collected in the order in which the workers finish.
* `C27_requested_correlation_violated` – C27 is violated: asked for Pearson's coefficient, the screening puts a feature first whose Pearson coefficient is the smaller one.
* `C30_distinct_components_violated` – C30 is violated for every data set and every number of components above 1: the leading vector is used twice and the last requested one is missing.
* `C32_shared_subset_violated` – C32 is violated: given an initial subset, the second member of a serial ensemble does not start from it: with four rows and initial subset [0, 1] the second member has nothing left to test.
* `C32_starts_grown_violated` – C32 is violated in general: every member after the first starts from the list its predecessor has grown.
* `C33_order_violated` – C33 is violated: the order of the results is the order of arrival.
* `C34_ucb_max_violated` – C34 is violated for every data: when maximising, the candidate with the larger prediction gets the lower score.
* `C37_classify_violated` – C37 is violated: `classify` gives exactly the scores of `rank`, for every classifier: the class of a candidate has no influence on its score.
* `C37_own_class_violated` – C37, a concrete violation: training structures of class `true` have the target 10, those of class `false` the target 0. A candidate of class `false` predicted at 1 improves on its class but gets a negative optimistic score.
* `C37_needs_features_violated` – C37, further: without training features, or with more candidates than training points, `classify` raises an exception although the features play no role in the scores.
* `C40_user_reg_violated` – C40 is violated: a regularisation given by the user is not used; for every data set the call fails.
* `C40_stale_violated` – C40 is violated when an object is used twice: the decomposition of the first data set is used for the second. For one row and one feature, fitting 1 = 1·a and then 1 = 2·a with regularisation 1 gives 1 instead of 2/5, whatever singular value decomposition is used.
* `C40_calls_violated` – C40 is violated when `get_coefficients` is called again on the same object: for all data, the second call solves the normal equations with the products of the features of the first call, `X₁ᵀX₁`, in place of `X₂ᵀX₂`.
* `C43_new_kernels_violated` – C43 fails when `update_gp` is given kernels only: the inverse is that of the old covariance. A model of one point with target 1 and a constant kernel predicts 3/2 instead of 3/4.
* `C43_new_features_violated` – C43 fails when `update_gp` is given training features only: a linear model with the point 1, which is changed to 2, predicts 1 instead of 2/5 at 1.
* `C43_default_flag_violated` – C43 fails for models with hyperparameters on a log scale when `update_data` is called without the flag: even an update with the data the model has already changes the predictions.
* `C44_scaling_violated` – C44 fails for models that scale their data: a linear model of the points (0, 0) and (2, 2).
* `C45_noise_first_violated` – C45 fails when a noise kernel is followed by another kernel: the position in the list is not advanced, so that the next kernel gets the hyperparameters of the noise kernel, whatever the list contains.
* `C45_quadratic_violated` – C45 fails for every quadratic kernel: after its hyperparameters were set from a list they cannot be read again.
* `C47_noise_violated` – C47 fails for the regularisation: the covariance contains its square, so that the diagonal of the derivative is `2 r`; the last entry of the gradient is the identity.
* `C47_laplacian_unscaled_violated` – C47 fails for a Laplacian kernel without 'scaling': on its own it raises (the kernel matrix was never computed), and after a Gaussian kernel its derivative is computed from the matrix of the Gaussian kernel.
* `C47_features_violated` – C47 fails for kernels on some of the features: the derivative is computed with all of them.
* `C49_zero_violated` – C49 fails: whatever the hyperparameters, the error of the predictions on the training data is zero, as they are made with the covariance that includes the regularisation.
* `C50_constant_violated` – C50 fails for equal targets: the scaled targets are nan, and so is what they are rescaled to.
* `C50_laplacian_violated` – C50 fails for Laplacian kernels, whose widths stay as they are although the features are scaled.
* `C50_log_scale_violated` – C50 fails for Gaussian kernels when the hyperparameters are on a log scale: the logarithms are divided.
* `C50_unknown_violated` – C50: kernel types without a scaling function raise NameError.
* `C51_order_violated` – C51 fails for every list of more than ten different kernels.
* `C53_later_violated` – C53 fails when a `FixCartesian` follows a `FixAtoms` on the same atom: assigning the row of the atom releases the coordinates that only the first one fixes.
* `C53_first_violated` – C53 fails for the reverse order too: the first constraint of the list is applied again in every pass, so a `FixCartesian` at the head releases coordinates that a later `FixAtoms` had fixed.
* `C55_third_violated` – C55 fails with three images (the smallest number the constructor makes): when the initial state is lower than the final one, the first evaluation is at the final endpoint, which is known already.
* `C55_budget_violated` – C55 fails with `steps = 1`: a calculation that knows only its endpoints makes two evaluations.
* `C55_sequential_violated` – C55 fails across calls in sequential mode: if the first call ends by its budget before a stationary point is found, the object keeps three images, and the next call reports convergence with three images although the object was made with more.
* `C55_surrogate_violated` – C55 fails for more than 10000 steps on the surrogate: a NaN energy sets the step counter to 10000, so as long as the energy stays NaN the loop never reaches its limit.
* `C56_acq5_violated` – C56 fails for `acq_5`: it never alternates. Its last condition repeats the outer one, so it is `acq_2` for every profile, iteration and flag.
* `C56_acq1_violated` – C56 fails for `acq_1` and `acq_4` as well: until a stationary point is found they are the same rule.
* `C57_refill_violated` – C57 fails: `fill_db` adds a second row for an identifier that is present, and the query keeps returning the first row, that is the old value.
* `C57_names_violated` – C57 fails: `fill_db` ignores the names it is given, so that names in another order than the columns put the values under the wrong descriptors, without an error.
* `C58_order_violated` – C58 fails: the rows come in ascending order of the identifiers, not in the requested one, also when SQLite keeps the order of entry inside a row.
* `C58_columns_violated` – C58 fails: whatever the order in which SQLite concatenates (as long as it looks at the stored rows only), the columns cannot follow both of two requests that list the parameters in different orders.
* `C58_single_violated` – C58 fails: one identifier is an SQL error, for every database.
* `C58_missing_violated` – C58 fails: an identifier without values gets the row of the next one, and the zeros go to the last row.
* `C58_broadcast_violated` – C58 fails: an image with one value of the requested several gets it in all columns.
* `C59_violated` – C59 fails: two atoms with radii 1 and 2 at distance 3.45, with the default buffers: the second is a neighbour of the first, but not the first of the second.
* `C61_parallel_empty_violated` – C61 fails for the empty list: the serial call returns an empty matrix, the parallel one raises IndexError.
* `C61_parallel_error_violated` – C61 fails: whatever a fingerprint function raises, the parallel call raises IndexError instead.
* `C61_dict_violated` – C61 fails for dictionaries, which the documentation allows: a `defaultdict` is treated like the list of its keys, a plain `dict` is a TypeError.
* `C61_autocorrelation_violated` – C61 fails for the autocorrelation fingerprint: with it in the list `return_names` always raises, although `return_vec` works.
* `C63_order_violated` – C63 fails when the user gives `atom_types` in another order: the bonds between different elements are lost.
* `C64_reciprocal_violated` – C64 fails: two atoms at distance 7 give 1/7.
* `C64_plane_violated` – C64 fails: atoms that agree in a coordinate are not counted at all: two atoms on the z axis have no distance.
* `C64_mean_violated` – C64 fails: two hydrogen atoms with parameter 3 have the mean 2 (the sum 6 over 1 + 2 entries), not 3.
* `C65_check_violated` – C65 fails when both lists are attached: the check looks at their lengths only, and overlapping lists that leave atoms out are accepted.
* `C66_violated` – C66 fails for `termination_info`: the outermost layer is stored as subsurface and the second layer as termination.
* `C67_first_violated` – C67: conversely the element that comes first in the set is never considered: if it is the only metal, the structure is not called an oxide.
* `C67_violated` – C67 fails: for every metal, the dioxide is an oxide or not depending on the order of a set.
* `C68_violated` – C68 fails for the first iteration, which trains on all rows, and for the second, which trains on `step` rows even if that is below `min_data`; the size `min_data` itself is used only if it is a multiple of the step, and the reported sizes do not grow.
* `C68_parallel_violated` – C68 fails in parallel: another order of arrival gives another curve.
* `C69_size_violated` – C69 fails for the targets: they have the sizes of the other set.
* `C69_target_violated` – C69 fails even with equal sizes: the target of a row is the one of another row, whether or not the rows moved.
* `C71_input_untouched_violated` – C71 is violated: without targets the caller's own array is reordered, also when the call is then refused.
* `C72_generation_completes_violated` – C72 is violated: with an accuracy, natural selection can leave a single individual, and from then on the search for a second parent never ends, whatever is drawn.
* `C73_dmax_violated` – C73 is violated: with `dmax = 1`, mating two individuals of one feature each gives one of two features, and nothing reduces it.
* `C74_survival_across_generations_violated` – C74 is violated: ranks are computed within the initial population and within each batch of offspring only, so natural selection can keep an offspring and drop an older individual that strictly dominates it.
* `C76_different_mates_violated` – C76 is violated: on the initial population, a numpy array, an individual can be mated with itself, and the child is a copy of it.
* `C77_nonempty_individuals_violated` – C77 is violated: the flip mutation can remove the last feature, and the fitness function is then called with no feature at all.
* `C78_caller_arrays_violated` – C78 is violated: a standard deviation array passed in by the caller has its zeros overwritten.
* `C80_mask_protects_violated` – C80 is violated by `clean_variance` and `clean_skewness`: a constant feature is removed although it is masked, and so is any feature above the skewness bound.
* `C81_dev_respected_violated` – C81 is violated: the number of deviations asked for has no influence, so e.g. with `dev = 3` a target well within three deviations of the median is removed.
* `C83_input_untouched_violated` – C83 is violated by every matrix: whatever matrix with at least one entry is given to `get_ablog`, its caller finds every entry larger by at least one afterwards, so that a second call on the same variable works on other data.
* `C83_history_violated` – C83 is violated more with every call: after any calls, `k` of them of `get_ablog`, every entry of the caller's array is larger by at least `2 ^ k - 1`, and the entries of a column by the same number.
* `C84_exclude_violated` – C84 is violated for `N = 0`: `1` is returned although excluded.
* `C86_greedy_metadata_violated` – C86 is violated: whenever the user's predict function returns additional values, greedy elimination raises an exception instead of reporting them.
* `C87_metadata_violated` – C87 is violated: in a serial run over features 0 and 1, where feature 1 has the lower score and metadata 20 and feature 0 has metadata 10, feature 1 is eliminated and reported with the metadata of feature 0.
* `C88_kill_any_time_violated` – C88 is violated: a run killed while the save file is being written cannot be restarted.
* `C89_uses_given_data_violated` – C89 is violated: with the save file of an earlier search present, a search on different data does not return what that data gives, but what the earlier data gives.
* `C90_response_orthogonal_violated` – C90 is violated by an accepted feature of another norm, and by a second accepted feature: the response keeps a component along them.
* `C91_accepts_best_violated` – C91 is violated: five features are screened; the two most correlated ones are features 3 and 1. The regression on them gives feature 1 the coefficient 2 and feature 3 the coefficient 1. The round accepts feature 3.
* `C92_size_honoured_violated` – C92 is violated: without iteration the requested size has no influence on the result.
* `C95_object_unchanged_violated` – C95 is violated: after a successful call of a screening object that was created with the random check switched on, the check is off for all later calls.
* `C96_optimistic_min_violated` – C96 is violated when minimising: `rank` uses the same score, so the candidate with the larger (worse) prediction is ranked higher.
* `C97_n_max_violated` – C97 is violated with the default initial subset and batches of one: for a limit of 3 training points, the third iteration trains on 4.
* `C98_rank_value_violated` – C98 is violated: with a numerical target as objective, UCB, EI and PI give no scores at all.
* `C100_cluster_violated` – C100 is violated for negative predictions: the more populated cluster is preferred.
* `C102_fit_violated` – C102 is violated for features that are not independent: whatever the data, the coefficients `get_coefficients` returns are not numbers.
* `C102_singular_violated` – C102 is violated for data whose smallest singular value is zero (a feature that is zero for all data, or fewer data than features): the logarithm of zero makes the grid NaN, `argmin` prefers NaN, and the result is NaN, or zero if the error estimate without regularisation is itself NaN; the coefficients are then NaN or infinite.
* `C102_few_steps_violated` – C102 is violated for `wsteps = 1` or `wsteps = 0` with more than one search step: the second step raises TypeError or UnboundLocalError, whatever the data.
* `C102_nan_violated` – C102 is violated if the error estimate is NaN for every regularisation (C208: a data point that is in every bootstrap sample): the smallest value of the grid is returned, whatever the data.
* `C105_linear_second_derivative_violated` – C105 fails: the second derivative of the linear kernel with respect to different coordinates is zero, the covariance with gradients contains 1.
* `C106_linear_violated` – C106 fails with a linear kernel: with one point and two features the covariance is not positive semidefinite.
* `C107_product_violated` – C107 fails for products: a Gaussian kernel multiplied by a constant `c` has second derivative `c / w²` at every point, the covariance with gradients has zero there.
* `C108_unscaled_violated` – C108 fails for a kernel without 'scaling': on a log scale the missing scaling of 1 is exponentiated and every covariance is multiplied by `e`.
* `C109_product_violated` – C109 fails for products: with the operation 'multiplication' on every kernel the covariance is zero (the product is started from a matrix of zeros), and exchanging the two factors of a product changes the covariance.
* `C110_degree_violated` – C110 fails for every degree other than one: the kernel of different points is not the documented one.
* `C110_quadratic_violated` – C110 fails for more than one feature: the degree is not used at all (the second slope takes its place), nor is any slope from the third on.
* `C111_bounds_violated` – C111 fails: the number of bounds the user gives is not compared with the number of hyperparameters. Whatever kernel without scaling is accepted with some bounds, it is accepted with any other number of bounds as well, with the same hyperparameters, and that number is returned (and one for the regularisation).
* `C111_multi_violated` – C111 fails: without bounds of the user a `constant_multi` kernel gets three and a `noise_multi` kernel two, however many hyperparameters it has.
* `C112_unusable_types_violated` – C112 fails: kernel types without a `_setup` function ('sqe', 'scaled_sqe' and 'AA' are implemented in `kernels.py` and in the packing of hyperparameters) make every preparation fail.
* `C115_scaled_violated` – C115 fails for models that scale their data: the uncertainty is multiplied by the standard deviation of the targets, which a further point can increase. With a constant kernel the uncertainty at every point is larger after a third point with the target 10 than for the targets 0 and 2.
* `C119_sum_violated` – C119 fails: standard deviations are added instead of variances.
* `C119_log_scale_violated` – C119 fails on a log scale: the logarithm of the noise is added, so that the result can be negative.
* `C120_noise_violated` – C120 fails with a noise kernel: the covariance of the training data with themselves contains the noise.
* `C121_default_violated` – C121 fails for all models with the default `regularization=None`: they predict but raise TypeError when asked for uncertainties.
* `C124_regularisation_violated` – C124 fails for the regularisation, of which the covariance contains the square: at regularisation 1 the derivative of the loss is 1/2, the gradient given to the optimiser says 1/4.
* `C124_log_scale_violated` – C124 fails for hyperparameters on a log scale: the derivatives are taken as if they were not.
* `C126_no_regularisation_violated` – C126 fails for models without regularisation, the default: they cannot be written.
* `C126_log_scale_violated` – C126 fails with `scale_optimizer=True`: the logarithms of the hyperparameters are read as the hyperparameters.
* `C126_scale_data_violated` – C126 fails with `scale_data=True`: the file holds the scaled data only. For a constant kernel the model predicts the mean of its targets everywhere, the one read from the file predicts 0.
* `C127_violated` – C127 fails: the budget is tested before convergence, so a run whose last allowed evaluation has zero force is reported as not converged.
* `C128_violated` – C128 fails: `list_atoms` holds the same Atoms object again and again, so after one evaluation its first entry shows the new geometry instead of the initial one.
* `C129_violated` – C129 fails: with a kernel name that is documented but not implemented (`SQE_opt`) and a second known structure, the run stops with an undefined name.
* `C130_violated` – C130 fails: if the last previous calculation is already converged, `run` reports convergence at once and leaves the caller's structure at its initial geometry, where the force is above `fmax`.
* `C131_violated` – C131 fails for `acq_1`, `acq_3` and `acq_4`: in an even iteration the most uncertain image is evaluated, and if its forces are small the calculation is reported converged although another image is higher.
* `C132_violated` – C132 fails for the forces: the main loop never appends to `list_max_abs_forces`, so after any call that raised nothing it has fewer entries than there are evaluated structures, if it had one each before.
* `C133_violated` – C133 fails: with the documented string argument the table gets one column per character instead of the named column (and for a name with a repeated letter the call raises half way).
* `C135_violated` – C135 fails: the identifier that `image_entry` returns is not the one under which the image is stored; using it raises, for every database that does not hold it by accident.
* `C136_violated` – C136 fails beyond that bound: with a user given buffer of 20000 two atoms at distance 1 are entered in the first and again in the second shell, and get the sum 3.
* `C138_isolated_violated` – C138 fails: an atom without neighbours is missing in the dictionary, and if no atom has a neighbour the call raises.
* `C138_shell_violated` – C138 fails: the shell number is ignored. For every structure the result for any shell is that of the first, for instance where no pair is in the second shell.
* `C139_pair_violated` – C139 fails: with three elements the pair entry counts the bonds to all other elements.
* `C139_same_violated` – C139 fails: the entry for bonds within an element is, for every structure, the sum of the coordination numbers of its atoms, which is the entry of level one once more.
* `C139_monoxide_violated` – ... so that carbon monoxide has a C-C bond.
* `C140_square_violated` – C140 fails in general: for every binary matrix the value is the square of the coordination number of the atom itself over 12, independent of the coordination of its neighbours.
* `C140_violated` – The outer atom of a chain of three has the neighbour with coordination 2, but gets 1/12.
* `C140_level_violated` – C140, level three: for 0-1 matrices it is the sum of the squares of the coordination numbers over 12.
* `C141_violated` – C141 fails: for atoms with a stored neighbour list, which the documentation says is used, the call raises UnboundLocalError.
* `C141_no_cutoffs_violated` – C141 fails: the documented default of no cutoffs is a TypeError, whatever the structure.
* `C141_multiple_violated` – C141 fails: "multiple connections are counted" is not true: two atoms connected through several images have the entry 1, less than the number of their connections.
* `C143_violated` – C143 fails: an atom with a coordination number out of bounds, which the documented behaviour answers with NaN, is a KeyError when the structure has no `key_value_pairs`.
* `C144_order_violated` – C144 fails for `atom_types` in another order: the bonds between different elements are lost.
* `C144_bounds_violated` – C144 fails for a coordination number out of bounds: ValueError, where `bag_element_cn` returns NaN.
* `C145_connectivity_violated` – C145 fails for the search by connectivity: for C2O2 on a carbide the two oxygen atoms are returned twice and no carbon atom; for OH on an oxide with an isolated hydrogen atom only the hydrogen atom is returned. The final check that should refuse this compares `None` with `None`.
* `C145_last_violated` – C145 fails for the last atoms when the structure has fewer atoms than the species: an atom is counted twice.
* `C146_layers_violated` – C146 fails for an adsorbate below the surface: here on the underside it is reported as bulk, and the two topmost slab layers as termination.
* `C146_connectivity_violated` – C146 fails for slabs without tags, without exactly one constraint and without the key `layers`: there is no way to detect the termination.
* `C148_n_outer_violated` – C148 is violated: in a configuration without a core (`1s` of hydrogen, `1s2` of helium) the first shell is taken for the core, and the number of outer electrons is always too small; for hydrogen and helium it is 0.
* `C149_columns_match_labels_violated` – C149 is violated: if a parameter with its own expansion is named before an ordinary one, every call for at least one atom raises an exception.
* `C149_no_oxistates_violated` – C149 is violated: for an element without oxidation states (helium, neon, argon, radon) or without an entry for them (93 to 103), asking for the oxidation states raises an exception instead of giving NaN.
* `C150_formula_weights_violated` – C150 is violated: when every symbol carries a coefficient, the weights are the coefficients moved by one place: the first element gets the last coefficient.
* `C150_iron_oxide_violated` – `Fe2O3` is read as three iron for two oxygen, and `FeCoO2` raises IndexError.
* `C151_neutral_violated` – C151 is violated: as soon as one oxide ion (charge below -1) has a single bond, or none, the charges of the structure do not add up to zero: their sum is negative.
* `C153_hash_violated` – C153 is violated with Python 3, where `hashlib.md5` refuses text: there is no hash for any structure, and the atoms of the caller have been moved into the cell nevertheless.
* `C153_same_place_violated` – Two atoms at the same place (up to the wrapping): the order matters.
* `C154_distinguishes_violated` – C154 is violated (also where there is a hash): in a structure of at least 334 atoms, all atoms but the lowest and the highest can be moved without changing the hash.
* `C154_concatenation_violated` – C154 is violated by small structures as well: coordinates are written one after the other without separator, so that an atom at (1, 12, 0) and the same atom at (11, 2, 0) give the same hash, in every cell that contains both.
* `C156_last_image_violated` – C156 is violated: `last_image` is the second image, so with three or more different images it is not the last.
* `C156_single_image_violated` – C156 is violated: a trajectory of a single image cannot be converted.
* `C156_misaligned_violated` – C156 is violated: otherwise they are accepted silently and rows mix the atoms of different images: the second row here holds the only atom of the second image and the first atom of the third.
* `C158_empty_group_violated` – C158 is violated for an empty group (a structure without site or cation atoms): the minimum and the maximum raise ValueError, although the mean and the median are returned as missing values and the sums as zeros.
* `C159_extra_params_violated` – C159 is violated: the names are fixed, so for extra parameters with another number of columns the numbers and the names never match, and nothing is raised.
* `C159_duplicate_name_violated` – C159 is violated: `bulk_average` and `bulk_std` both call a feature `en_gordy`, so the names of the two default fingerprints together are not distinct.
* `C159_modulus_violated` – C159 is violated: the default list asks for `dft_std_modulus`, a parameter the elemental data do not have, so that column of the averages is missing for every structure (and 0 in the sums).
* `C162_wrong_atom_violated` – C162 is violated: for a group of one atom the second half multiplies by the value of the first atom of the structure instead of the value of the atom of the group.
* `C162_order_of_atoms_violated` – C162 is violated: the order of the atoms in the structure changes the fingerprint. Atoms with the values 1, 2, 3, the last two bonded, the group being the atom with the value 3: the product over the bond is 6, the code gives the root of 2, and the root of 6 if the atoms are listed in the opposite order.
* `C162_unknown_value_violated` – C162 is violated: a value that is unknown for one atom anywhere in the structure, bonded to the group or not, makes the second half of that column missing.
* `C162_negative_violated` – C162 is violated: two bonded atoms with values of opposite sign (electron affinities, heats of formation) have no second-half value.
* `C163_bag_edges_chemi_violated` – C163 is violated: `bag_edges_chemi` is documented to count only bonds within the adsorbate and between adsorbate and surface, but it counts every bond of the structure, whatever the slab atoms are: it is `bag_edges`.
* `C163_bag_edges_all_lost_violated` – C163 is violated: `bag_edges_all` loses bonds. Carbon monoxide (atoms 1, 2) on a copper atom (atom 0): the entry for carbon and copper is 0, although carbon is bonded to copper; with copper listed last it is 1.
* `C163_bag_edges_all_double_violated` – C163 is violated: with the adsorbate behind the slab, `bag_edges_all` counts bonds within the adsorbate twice. Oxygen (atoms 2, 3) above two copper atoms: the single O-O bond is counted twice.
* `C163_bag_edges_all_length_violated` – C163 is violated: the documented length of `bag_edges_all` is the product of the numbers of types; the vector is shorter as soon as there are two types of adsorbate atoms.
* `C164_labels_violated` – C164 is violated: the entries are named from `count_3nn_site` on, but entry `k` counts coordination number `k`. A site neighbour with `k` slab neighbours is counted under the name of coordination number `k + 3`.
* `C164_index_violated` – C164 is violated at the upper end: a neighbour of the site with 28 or more slab neighbours raises IndexError, although there are names up to `count_30nn_site`.
* `C165_gcn_violated` – C165 is violated: the generalized coordination number of Calle-Vallejo et al. is the sum of the coordination numbers of the neighbours over `cn_max`. The function divides by the number of neighbours once more, so the value is too small as soon as the site has two neighbours and one of them has a neighbour.
* `C165_gcn_ads_violated` – C165 is violated: for carbon (atom 3, bonded to a copper atom with three neighbours and to oxygen with one) the generalized coordination number is (3 + 1) / 12 = 1/3. When oxygen is listed as the atom with index 1 the function returns 1/6: it uses the connectivity (1) where the index of the neighbour belongs.
* `C167_twice_violated` – C167 is violated: with a symmetric connectivity `en_difference_ads` is twice the sum over the bonds within the adsorbate.
* `C167_active_violated` – C167 is violated: in `en_difference_active` the bonds within the adsorbate weigh twice as much as the bonds to the site.
* `C167_unknown_violated` – C167 is violated: one atom with an unknown electronegativity, bonded or not, makes the entry nan.
* `C168_neutral_violated` – C168 is violated: a slab anion without neighbours leaves the structure with a net charge.
* `C168_oxistates_violated` – C168 is violated: a slab element without known oxidation states makes the function raise, although the other fingerprints give nan for what the table does not know.
* `C169_own_neighbour_violated` – C169 is violated: in a structure without any two atoms within `nndist` of each other every element present still has one nearest neighbour of its own kind.
* `C169_first_structure_violated` – C169: so `atom_types`, once set by the first structure, makes every later structure with another element fail; a generator that has seen a copper particle cannot describe a gold particle.
* `C170_max_bonds_violated` – C170 is violated: `max_bonds` is said to be the highest number of bonds counted, but an atom with `max_bonds` (at most twelve) neighbours raises IndexError: twelve, the documented default, fails for the atoms of a close-packed bulk.
* `C170_thirteen_violated` – C170 is violated: if every atom has more than twelve neighbours nothing is counted, for every value of `max_bonds`.
* `C170_length_violated` – C170 is violated: the vector of a structure with one element and that of a structure with two elements have different lengths, whatever `atom_types` says; and there are no names.
* `C170_distribution_changes_structure_violated` – C170, `distribution_vec`: computing the fingerprint changes the structure it is given. The cell is replaced by a cube (so periodic neighbours are lost for all later fingerprints), the positions are shifted; the distances within the structure are kept.
* `C171_fragment_violated` – C171 is violated: a comma is missing in the default list for molecules, so the default set for fragments can never be obtained from a generator, which has no function called `bag_elementsbag_edges`.
* `C173_missing_target_violated` – C173 fails when a target is missing: its row stays, with the missing target; a feature that is missing in that row only is kept (the row is ignored when columns are judged) and comes out missing in every row, for any numbers in the good rows.
* `C173_all_eliminated_violated` – C173 fails when no feature is left: constant features are all eliminated and no error is raised ("All features has been eliminated" is only raised for a matrix without rows); the result has rows without entries.
* `C173_failed_process_violated` – C173 fails after a `process` that raises: the object has the new columns but the old offsets and scales, so that every `transform`, possible before, now raises ValueError.
* `C174_laplacian_violated` – C174 fails for the general kernel list: the Laplacian kernel has one width for each feature also when a single parameter is asked for.
* `C174_all_violated` – C174 fails for the documented dimension 'all' (as for every value but 'single' and 'features'): AssertionError.
* `C175_mean_violated` – C175 fails for the mean: every entry is the sum over the neighbours divided by `atom_len`, the length of the padding, not by the number of neighbours. A property that is `x` for all atoms has mean `x` times the number of neighbours over `atom_len`.
* `C175_isolated_violated` – C175 fails when the structure has no neighbours, for instance a single atom: the entries of all atoms are NaN.
* `C175_missing_violated` – C175 fails when the table lacks the property for one element of the structure: all entries of the parameter are NaN, also those of atoms that are not its neighbours and of the padding.
* `C176_tie_violated` – C176 fails for two elements that are equally frequent: the fingerprint depends on the numbering of the atoms, for all elements with different data.
* `C176_site_violated` – C176 fails for the site: the code 3 (an atom of the second element) is never returned, since the first element is by definition the most frequent one of the same atoms.
* `C176_concentration_violated` – C176 fails for the concentration: every composition written with the digit 3 counts as A3B, also a pure metal.
* `C177_stale_violated` – C177 fails after the atoms move: whenever the lists of two geometries differ, `get_neighborlist` of a structure moved from one to the other still returns the list of the old geometry.
* `C178_diagonal_violated` – C178: the atomic numbers are read off the diagonal of the adjacency matrix, unless an atom is its own neighbour (through the periodic boundary), when the number is one too large.
* `C178_cutoffs_violated` – C178 fails for cutoffs when a neighbour list is stored: they are ignored.
* `C178_multiple_violated` – C178 fails for connectivity matrices that count bonds (as `ase_connectivity` gives them for small cells): a pair with two bonds is not in the neighbour list.
* `C179_decreasing_violated` – C179 fails for results in order of decreasing size: they all become a single point, whatever their sizes.
* `C179_single_violated` – C179 fails for a level with a single result: its spread is nan, or an exception for python floats.
* `C180_too_few_violated` – C180: if lasso never keeps as many features as the smallest number asked for, the selection ends in an `IndexError` and not in an empty answer (for example for a target without variation).
* `C180_endless_violated` – C180 fails: the search never ends if lasso keeps more features than wanted only without regularisation and fewer at every positive alpha (in exact arithmetic; the interval shrinks to a third in every pass).
* `C181_stale_violated` – C181 fails: every later subset of a level with at least four subsets has errors computed with the coefficients of the very first model of the run (`result[0][4]`), not with its own.
* `C182_constant_violated` – C182 fails for a feature without variation in the training data: the test data keep its unit, so that the scaled test data change with the unit (here the only training value is 0, the test value 1 or, in the other unit, `a`).
* `C182_global_standard_violated` – C182 fails for the global scaling with standardisation: the features of the training set come back as they were, so that a column of all the data whose mean is not zero still has that mean.
* `C182_given_violated` – C182 fails if scale and offset of the targets are given to `scaling_data`: the targets come back unscaled, while the error is computed as if the model spoke of scaled targets.
* `C122_scaled_violated` – C122 fails with scaling of the data: only one of the two parts of the prediction is transformed back. The result differs from the prediction in the original units by `(1 - s)` times the part of the basis, where `s` is the deviation of the targets.
* `C183_second_run_violated` – C183 fails for a second run with the same object: it starts with the features the first run has left, and numbers those from 0, so its `abs_index` does not refer to the data of the user.
* `C183_far_violated` – C183 fails for the claim that this is the sensitivity of the predicted mean: the covariances between test and training points do not enter. For one training point at 0 with target `y`, a gaussian kernel of width `w` and regularisation `g`, take a test point far away: the slope of the prediction is as small as wanted, the sensitivity as large as wanted.
* `C184_parents_violated` – C184 fails for more offspring than about half of the population, although the description asks for `m + 1` parents only: parent `2 (m - 1)` does not exist.
* `C184_size_violated` – C184 fails if there are fewer combinations of features than the announced population size: `mutate` draws a position from the announced size.
* `C185_mutate_violated` – C185 fails for `mutate`: every mutation changes the features of a member of the population and leaves the score that was recorded for the old ones.
* `C186_stale_maximum_violated` – C186 fails for `evolve`, because of the mutations: after two generations the maximum fitness reported is 0.6, but no member of the population has features that score more than 0.5.
* `C186_lost_violated` – C186 fails for `evolve`: the maximum fitness falls, from 0.6 to 0.1 after twelve generations.
* `C187_missing_violated` – C187 fails for the last features of the data: if none of the features from `T₀` on is selected, they are not listed with 0 per cent, they are missing.
* `C188_relaxed_violated` – C188 fails for relaxed structures, close to the origin: the tolerance is relative to the coordinate. The second of two atoms is missing and the first has moved by a millionth of an Å from the origin: the first is reported.
* `C189_reference_violated` – C189 fails for selected sites if reference energies were given: the materials take the default table. For one more eV in the reference of every element the stability and the cohesive energies no longer agree.
* `C190_duplicates_violated` – C190 fails for uniqueness, which the description promises: the draws are made with replacement. If more sites are asked for than there are candidates, some site is selected twice, whatever the draws.
* `C190_twice_violated` – … and it can happen for every selection of two or more sites.
* `C191_several_violated` – C191 fails for several outliers: the indices are used one after the other although the list gets shorter. Of consecutive sites `a b c d` with outliers `a` and `c`, the sites `b` and `c` are left with the rows of `b` and `d`; and if the last two are outliers, an exception is raised.
* `C192_stale_violated` – C192 fails without a refresh: a new selection of sites keeps the table of the old sites, and the normalised table survives the removal of outliers.
* `C195_centres_violated` – C195 fails for the claim of the code ("Center bins"): no position is the centre of its bin, for any number of bins, because the range is divided by the number of edges.
* `C195_mic_violated` – C195 fails for `mic=False`: the argument is not used, the minimum image convention is always applied; for two atoms next to each other across the cell boundary the result has a neighbour although there is none without periodic images.
* `C195_self_violated` – C195 fails for small radii: a single atom of radius 0.3, with the default bounds, has a "neighbour".
* `C196_repeated_violated` – C196 fails for repeated points: if two equal original points are apart after the reduction the error is infinite; if all points are the same, before and after, or there are fewer than two, it is NaN.
* `C197_optional_violated` – C197 fails without targets or test data, which are optional: TypeError without test data or test targets, ValueError without training targets.
* `C198_minimum_violated` – C198 fails for the claim of the description, "Use the minimum ab initio energy, disregarding the site": whenever two candidates with one key have different predictions, the energy stored is not the smallest one.
* `C198_defaults_violated` – C198 fails for the defaults `uncertainty=None` and `catmap=None`: exceptions.
* `C198_keys_violated` – C198 fails for fields with underscores: different candidates get the same key, and one is lost.
* `C199_formula_violated` – C199 fails for larger multiplicities: 12 is written as 2, 10 as 0 and 11 not at all, whatever the symbol, so different compounds have the same formula.
* `C200_empty_violated` – C200 is violated for the empty species: `z[-0:]` is every atom, so a clean slab is refused.
* `C202_repeated_violated` – C202 is violated when the adsorbate has several atoms of an element that the slab does not have (two hydrogen atoms of water on platinum): these atoms are returned more than once, because the comparison that should end the function early compares indices with symbols.
* `C202_check_violated` – C202 is violated when the structure does not have the atoms of the species: the check at the end never fails.
* `C203_shape_violated` – C203 is violated for a reference with another number of atoms: ValueError, and with it no result for any of the pairs.
* `C203_single_violated` – C203 is violated for a reference of one atom: its single entry is compared with every pair of slab atoms, so that two atoms without bonds count as the same slab as one atom.
* `C204_oxide_violated` – C204 is violated for oxides: the layers consist of the atoms of one metal only; the oxygen atoms (and other metals) are in no layer.
* `C204_one_per_layer_violated` – C204 is violated for a slab with one atom in each layer (heights more than twice the tolerance apart, as in every slab of a primitive surface cell): no layers are ever returned, for any clustering and any `max_layers`. With one atom in each cluster the pooled deviation is NaN, with fewer clusters it exceeds the tolerance; the function raises ValueError (more clusters than atoms) or ends without a result.
* `C205_empty_fold_violated` – C205 is violated by JSON for folds without rows (more folds than data): the fold comes back as an array with one dimension, of shape `(0,)` instead of `(0, c)`, which the next column index or concatenation refuses.
* `C205_no_targets_violated` – C205 is violated by JSON for splits without targets (`k_fold` without targets): TypeError, while pickle stores them.
* `C206_stale_violated` – C206 is violated for a `min_split` between half and all of the data: no split is made and no error raised, and the split that is loaded is whatever an earlier run left in the file, possibly of other data.
* `C206_identity_violated` – C206 is violated for a format given by a string that is not the literal itself (read from a file or put together): the split is written and cannot be loaded, because `load_split` compares with `is`.
* `C207_twice_violated` – C207 is violated by a second `todb` on the same database (running a script twice): the table is kept and the data are appended with new uuids, so every data point is in the index twice and can be in a training and a test subset at once.
* `C208_nan_violated` – C208 is violated for a data point that is in every sample (as happens with few samples or few data): the mean of nothing is NaN, and with it the estimate for every regularisation and all targets (C102: the smallest regularisation is then chosen).
* `C208_one_sample_violated` – C208 is violated for a single sample: IndexError.
* `C123_product_violated` – C123 is violated with a product of kernels: without regularisation a Gaussian kernel times a constant cannot be trained on gradients (LinAlgError).
* `C123_linear_violated` – C123 is violated with a linear kernel, whose covariance with gradients is no covariance (C106): training fails, here for one point with two features.
* `C123_constant_targets_violated` – C123 is violated for scaled data if all targets are equal, also if the gradients are not zero: the targets are divided by their standard deviation, and every prediction is nan.
* `C209_constant_multi_violated` – C209: with `constant_multi` among the kernels a model can be trained and predicts, but asking for the uncertainty raises AssertionError (the kernel refuses to be evaluated without gradients).
* `C209_no_regularisation_violated` – C209 is violated without regularisation: a model can be trained and predicts, but asking for the uncertainty raises TypeError.
* `C210_drop_gradients_violated` – C210 is violated without gradients: a model made with gradients cannot be updated with features and targets alone, since the covariance keeps its rows for gradients.
* `C210_add_gradients_violated` – C210 is violated the other way round: a model made without gradients cannot be updated with any.
* `C211_gradients_counted_violated` – C211 is violated: the training error is not that of the targets alone; the gradients are counted as if they were targets, with scaled data after division by the scale of the targets over that of the features and addition of the mean target.
* `C213_failed_violated` – C213 is violated when an optimisation fails: the next model does not go on with the hyperparameters of the last successful optimisation (as the message says), but with those at which the failed one ended: they were written into the same dictionaries. Here `v` is any state after a success, `r` the list of dictionaries kept.
* `C213_variance_violated` – C213 is violated after the first successful optimisation: from then on the prior variance of every model is the one of that iteration, however much the energies found since spread.
* `C213_unknown_violated` – C213 is violated for a kernel that does not exist, if the run starts with one structure: it is accepted, and every model of the run has the hyperparameters and the prior variance for one structure.
* `C125_shared_violated` – C125 is violated by two models made with the same kernel dictionary, also if their data are different: optimising the second changes what the first predicts, at every point but its training point, and the dictionary of the user.
* `C125_failed_violated` – C125 is violated when an optimisation raises because the likelihood cannot be computed for hyperparameters it tries: the model keeps those hyperparameters together with the inverse covariance of the old ones. A model of one point and a constant kernel with positive constant predicts with the constant that was tried.
* `C118_constant_feature_violated` – C118 is violated for a feature that is constant in the training data: it is not scaled (its standard deviation is taken as 1), so that the uncertainty of a linear model at any other value depends on the unit of this feature.
* `C214_names_violated` – C214 is violated for every name that is not a literal (names are compared with `is`) and for misspelt names: the row is empty, and there is no error.
* `C215_periodic_violated` – C215 is violated for periodic structures: the features depend on the copy of an atom the cell happens to contain. Two atoms at distance `d` are neighbours; moved by any lattice vector that is long enough, one of them has no neighbours any more and is refused.
* `C216_nan_violated` – The values of a site depend on the other sites: a stability of NaN (the failed insertion of L541) is NaN with this site alone, but 0, as for a site at equilibrium, as soon as there is another site.
* `C216_pure_violated` – An element present once is counted twice: in a table with a site of a binary material, a site of a pure metal has its metal both as element 0 and as element 1, and the numbers of atoms of its elements add up to twice the number of its atoms.
* `C216_eleven_violated` – `site_features` raises KeyError if some site has eleven elements or more and another at most ten: of the column `Z10` the replacement is `Z00`.
* `C217_lost_violated` – If some atom has more elements than the first atom, the table has `material_number` twice, and the column `e_val` of the last element is lost, although the atoms with the most elements have a value in it.
* `C218_numbering_violated` – C218 is violated: numbers that agree modulo 8 collide in the table of the set, and the element of the first atom comes first. For F-H-F the second entry is 2, the sum of the squares of the coordination numbers of fluorine, if a fluorine atom is the first, and 4, that of hydrogen, if hydrogen is.
* `C219_element_zero_violated` – C219 is violated: which element is element 0 depends on the order of a set of strings, and that differs from one run of Python to the next. Any element of the material can be element 0, so that columns `Z0`, `n0` and `e_val0` of the same material differ between runs.
* `C220_negative_feature_violated` – C220 is violated by negative features: for every list of features without zero, every negative one of them and all orders with `max_num ≥ 2` and `max_den ≥ 1`, the number returned for the square of the feature is minus its square.
* `C220_zero_feature_violated` – C220 is violated by features that are zero: if one feature is zero and denominators are allowed, no fraction at all is returned, not even those without that feature.
* `C220_inverses_violated` – C220 is violated for `max_num = 0, max_den = 1`: the inverses of the features are not returned for any list of numbers; the call raises.
* `C221_reference_violated` – C221 is violated by sites with their own reference energies: the updated materials use the default table, whatever table the site was made with. Here a defect of one atom with the energy -5 has a cohesive energy of -6 in the table of the site; the file with this same energy turns it into -15.
* `C221_element_violated` – C221 is violated by elements that the default table does not have: whatever the table of the site, the file cannot be taken over.
* `C221_stored_energy_violated` – C221 is violated by stored energies of materials: a material whose energy was stored in the object and whose atoms have no calculator is without energy after the energy of its defect has been updated, so that the stability of the site becomes NaN.
* `C223_existing_directory_violated` – C223 is violated by folders that are used again: if the directory of a material exists, the structure in it stays, whatever the material of the site is.
* `C223_same_number_violated` – C223 is violated by sites of different materials with the same image number: only the first material is written.
* `C224_merge_violated` – C224 is violated by `read_sites(…, extend=True)`: the numbers in the file are kept, so that the file of one sequence of reads added to the sites of another always gives two sites the same number.
* `C224_clash_violated` – C224 is violated by sites that were selected or read from a file before: the number given to a new site is the number of sites so far, which a site may have already. This holds for every list of sites in which some site has the number `len(sites)`; for instance the single site that `select_specific_sites([[1, 0]])` makes.
* `C224_replace_violated` – C224 is violated by `extend=False`: the list is replaced but the number goes on counting, so that the same call repeated gives another number.
* `C224_renumbered_violated` – C224 is violated for sites that were written and are read back: the number in the names of the directories is not the number of the site read, so that an energy reported under the name of the directory does not arrive. For every pair of sites of the same image, written to `material{i}` and read back in order, an energy file with the name of the second site changes nothing unless the image was number 1.
* `C225_local_scaling_violated` – C225 is violated without global scaling: `hierarchy` raises for every data set, every feature selection and either kind of learning curve.
* `C225_frequency_violated` – C225 is violated by `feature_frequency` without global scaling, also if the globally scaled subset is not used.
* `C225_feature_variation_violated` – C225 is violated by a varying number of features: as soon as some set of features is found, `hierarchy` raises at the first subset with the number 1, which every level has, and returns nothing.
* `C226_pareto_violated` – C226 is violated with several objectives: ranks are computed within the population and within each set of offspring, so the fitness listed with the final population is not that of its members (here a dominated individual is listed with the rank of the first front).
* `C227_counts_afresh_violated` – C227 is violated: the second search starts to count afresh, so a search that would have stopped goes on when it is interrupted, and ends with another population.
* `C227_pareto_violated` – C227 is violated with several objectives whatever the criterion: the second search computes other ranks for the same population, and natural selection then keeps other individuals.
* `C228_small_subset_violated` – C228 is violated for an initial subset smaller than a batch: the number of rounds is the number of rows divided by the batch size, rounded down, and rows remain that are never acquired.
* `C228_empty_proposal_violated` – C228 is violated if the surrogate model may stop proposing candidates: `test_acquisition` then ends, while a member of `ensemble_test` repeats the same round up to the end, so the two report different lists for the same emulation.
* `C229_default_size_violated` – C229 is violated by default: without a size every feature is accepted and every feature is rejected.
* `C229_not_found_violated` – C229 is violated: if no penalty of the list leaves enough features the search does not return the best model it has seen but raises NameError; the same happens for an unknown method.
* `C229_line_search_defaults_violated` – C229 is violated for the default arguments of the line search: without a size, or without a number of steps, it raises TypeError.
* `C230_prediction_violated` – C230 is violated: the error requested with `predict=True` is never returned. `get_error` has no entry `average`, and its dictionary returns an empty list for it.
* `C231_energies_violated` – C231 is violated by the default `force_consistent=None` with a calculator that has a free energy: the evaluated structures enter the training data with their free energy, the endpoints and everything read from the file with the extrapolated one. After a restart every evaluated structure has another target than before.
* `C231_previous_lost_violated` – C231 is violated for a calculation given previous calculations in a fresh directory: they and the endpoints are never written to `evaluated_structures.traj`; a restart trains on the newly evaluated structures alone.
* `C231_overwritten_violated` – C231 is violated for `restart=False` with `prev_calculations='evaluated_structures.traj'`: the file is overwritten with the endpoints before it is read, so that the calculations in it are lost.
* `C231_stale_file_violated` – C231: the training data contain the endpoints of the call unless a file or previous calculations are read; then they are the data of that file, whatever endpoints are passed. With the default `restart=True` a file left behind by another calculation is taken for the own one.
* `C232_sequential_violated` – C232 is violated in sequential mode: when the number of images has been raised again, the second cycle of a pass reads the last `N` structures across the stored paths of three images. Its inner images then contain the final and the initial state next to each other: the path goes to the end, jumps back to the start and goes to the end again.
* `C232_one_image_violated` – C232 in sequential mode: the one moving image does not start half way but at the first inner image of the path of `N` images, on a straight path at `1/(N-1)` of the way.
* `C232_second_run_violated` – C232 is violated for a second call of `run` on a converged object: the first one deleted the file the passes start from, and the first pass fails.
* `C233_stale_energies_violated` – C233 is violated: the table written when the run has converged is made after a last training of the process, but the images keep their calculators. If the new process reproduces the energy of the structure evaluated last, and the old one had predicted another value, the table shows the old prediction for that image — with the uncertainty of the new process, zero if that is certain of the training points.
* `C234_repeated_violated` – C234 is violated if a geometry was evaluated twice: the second evaluation is not read back.
* `C234_from_last_violated` – C234 is violated if the calculation is continued from its last structure: that structure moves to the head of the lists, the next step starts from the one evaluated before it, and convergence is judged by that one. A converged calculation is then not found converged.
* `C235_tolerance_violated` – C235 fails when a feature is small in the new units: with a process that can always be fitted, two points with one feature can be trained on, but after a change of units that makes the two values closer than the (absolute) tolerance the feature is eliminated and the training raises AssertionError.
* `C236_failed_training_violated` – C236 fails after a training that raises when the process is made: the object keeps its old process but scales test rows with the statistics of the new data, so that it silently gives other predictions than before.
* `C236_unusable_violated` – C236 fails after a training that raises for want of data: the object, which could predict before, now raises AttributeError for every test set.
* `C237_accuracy_violated` – C237 is violated with `accuracy`: the decimals are those of the unit at hand. With errors a thousand times smaller (kJ instead of J) and two decimals, the same search with the same random numbers ends with a single individual, the first of the initial population, and not with the best two.
* `C238_constant_feature_violated` – C238 is violated by a feature that is constant in the training data but not in the test data: it is not scaled, so the score returned by `minimize_error` depends on the unit of this feature.
* `C239_infinite_violated` – C239 is violated by every infinite value: if a column that would be imputed has an infinity, the call fails, although such columns are to be removed or imputed; the same call without imputation returns.
* `C239_no_column_violated` – C239 is violated if no column has few enough missing values: instead of removing all columns the call fails.
* `C239_copied_column_violated` – C239 is violated with `max_impute_fraction = 1`: a column without any number is filled with a copy of another feature if only one other column is imputed.
* `C240_test_untouched_violated` – C240 is violated by every test matrix of floats with a nan in a column that is imputed: the call overwrites it.
* `C241_quadratic_violated` – C241 fails for the quadratic kernel with a slope for each feature: exchanging the two features and their slopes changes the covariance, as the second slope is used as the degree.
* `C243_constant_violated` – C243 fails for test data in a column that is constant among the training data: there the result keeps the units, for all three functions.
* `C244_cluster_violated` – C244 fails for 'cluster', which divides predictions by the number of training points nearby: with another zero of the energy the order of two candidates is reversed.
* `C248_curve_violated` – C248 fails for subsets of two: with 17 data and `min_split = 2` there are three levels, of subsets of 8 or 9, 4 or 5 and 2 or 3, but the curve has four points, and the error reported for the size 4 is that of training sets of three alone: the errors of the subsets of four are reported for the size 5. (Here the error of a prediction is the size of the training set.)
* `C249_zero_violated` – C249: pairs whose target is below -1 are dropped silently, whatever is predicted, and negative predictions count as zero, so that wrong predictions can have the error zero; a target of -1 makes the error infinite.
* `C252_zero_violated` – C252 is violated for another zero: the test for constant features is relative to the first value. A feature that is the target itself but for its unit and zero comes last if it is measured from a distant zero, and first otherwise.
* `C252_unit_violated` – C252 is violated for other units, too: the same with a feature measured in a unit a billion times as large.
* `C254_order_violated` – C254 is violated: the test for constant features compares with the first entry, with a tolerance relative to this entry. With the first two data exchanged, the feature that is the target itself but for its zero and unit comes first instead of last.
* `C255_units_violated` – C255 is violated: a feature that varies is removed when it is expressed in a larger unit, and kept otherwise.
* `C256_labels_violated` – C256 is violated: the label of a category matters. Two rows with different categories get `1/3` or `2/9` depending on the numbers by which the categories are called, and not the value `1/2` of Aitchison and Aitken.
* `C256_covariance_violated` – C256 is violated: for `l = 1/4` and two categories, different rows have a larger entry than equal rows, and the matrix is not positive semidefinite.
* `C256_scaled_violated` – C256 is violated: `scaled_sqe_kernel` raises TypeError for all arguments (NotImplementedError if gradients are asked for).
* `C257_variance_violated` – C257 is violated: the numbers are shares of the singular values and not of their squares. Whenever another component has a smaller variance that is not zero, the variance reported for the first component is too small.
* `C258_no_test_violated` – C258 is violated for cleaned data: `clean_variance` returns a dictionary whose missing entries are empty lists, so without test data an empty list takes their place and every call raises an exception.
* `C259_single_violated` – C259 is violated for roots and logarithms: the shift is taken from the matrix that is given. Wherever the smallest entry of a column has another absolute value, the same entry has another root and another logarithm in the other matrix; so test data that are transformed on their own do not match the training data.
* `C259_ablog_violated` – C259 is violated for the combinations of logarithms in the same way, unless `a + b = 0`.
* `C260_screen_violated` – C260 is violated for features that are equally strong, for example a feature and its negative: the first one that is given comes first, so the order of the columns decides.
* `C262_unchosen_violated` – C262 is violated: asking for the angles or distances before a site has been chosen raises ValueError and clears the connection matrix; from then on no site has neighbours, and `get_site_features` raises ValueError for every site of every structure.
* `C262_moved_violated` – C262 is violated when the atoms are moved: the neighbours remain those of the positions at which the `Material` was made. A site whose neighbours are all taken away still has them (a new `Material` raises ValueError).
* `C263_tie_violated` – C263 is violated for features that are equally good: of two of them the one at a certain position is removed, so that exchanging them removes the other one.
* `C264_all_violated` – C264 is violated for `bag_edges_all`: nothing in the package assigns `ads_atom_types`, so that it raises an error for every structure after all public calls, AttributeError once `atom_types` are known and TypeError before.
* `C266_one_element_violated` – C266 is violated: the block of an element says nothing about the atoms of that element. For a particle of one element every atom is counted as having no connection, whatever its shape, and the histogram of its distances is that of no atom.
* `C266_block_violated` – C266 is violated: bonds of atoms of an element can be changed at will without any effect on the block of this element.
* `C267_lengths_violated` – C267 is violated: the vectors of structures with different numbers of elements have different lengths; there are no names that tell the pairs.
* `C267_set_order_violated` – C267 is violated: the same elements in another order of the set give another vector, as soon as the functions of the two elements differ.
* `C272_reported_violated` – C272 fails for the other losses 'rmse' and 'absolute': whatever the data, the kernels and the minimiser, the log marginal likelihood reported after the optimisation is zero.
* `C272_wrong_likelihood_violated` – C272 fails: the likelihood reported after an optimisation with the loss 'rmse' or 'absolute' is not that of the model.
* `C273_first_violated` – C273 fails: the first parameter of a database cannot be entered without a symbol, the call raises TypeError.
* `C273_taken_violated` – C273 fails: when an earlier parameter has the next number as its symbol, the parameter is not entered, and its symbol stands for the earlier one.
* `C288_rows_violated` – If Magpie leaves a structure out, the rows that follow move up, and the column that would tell is dropped: the first row belongs to the second structure, and the table is the same as that of the second structure alone.
* `C289_sites_violated` – In Python 3 no description of the sites can be made, not even the default one.
* `C289_default_violated` – With the default `properties=[]` no table is made, whatever the sites are, unless there are none.
* `C290_certain_violated` – A candidate with the best value and no uncertainty, such as the best training point of a model without noise, has no score: EI and PI are NaN.
* `C294_same_violated` – **Violation.** The elements come in the order of a set of strings, which differs from one run of Python to the next: every structure of two or more elements has, whatever the name given to it, another name it can be given as well.
* `C295_found_violated` – **Violation.** Of two files with the same symbols and unlike energies (two arrangements of one surface, say) one is silently lost: which one depends on the order in which the system lists the folder.
* `C298_units_violated` – C298: with regularisation units do matter, whatever the regularisation in the new units: a point at zero with value and slope one, a kernel of width one and a regularisation of one. Where lengths are twice as large, no regularisation gives the same predictions.
* `C303_scaled_violated` – C303 fails with `scale_data`: a far point makes the standard deviation of the features large, so that all other points become the same to the kernels. Of the values -1 and 1 at the points -1 and 1, a model with a third point far away predicts the same in the end.
* `C304_scaled_violated` – C304 fails with `scale_data`: the mean of the targets is added to the predictions unchanged, so that with kernels that do not see it the predictions move together. Of the values 11, 8 and 11 at the points -1, 0 and 1, with the product of two linear kernels, the model predicts 119/11, 10 and 119/11, and with the signs of the values changed the opposite.
* `C315_exploit_violated` – C315 does not hold for 'max' as the predictions are concerned (see C34): with kappa zero the lowest prediction always comes first, so that with two different predictions the better one does not.

## Trusted base

* **Lean 4.33.0** kernel and the definitions of Mathlib used in statements. The theorems depend on no axioms other
  than `propext`, `Classical.choice` and `Quot.sound`; the check command lists them for every theorem. No axiom is added, nothing is left open, the compiler is not trusted.
* **The reading of the code.** The model was written from the text of `/repo`; it was not run. Each definition cites file and
  lines and states how it simplifies.
* **Numbers.** Floating point is read as exact real (or rational) arithmetic. Rounding, overflow and the propagation of
  NaN are modelled only where a definition says so; a few findings rest on them (for instance the comparison after rounding in the genetic algorithm) and say so.

### Assumed behaviour of what the code calls

* `random`, `numpy.random`: any draw is possible; a shuffle is any permutation. `random.random` for C08: any grid of equally spaced values.
* `multiprocessing`: `imap_unordered` yields the results in any order, `map`/`map_async().get()` in the order of submission; an exception of a worker is raised in the caller.
* numpy: `array_split`, `argsort` (any permutation that sorts, stability not assumed unless stated), `percentile` by linear interpolation (of an empty
  array: an error, version dependent), `concatenate` of arrays of different rank: ValueError (this decides the
  outcome for the boxed quadratic kernel's degree and is version dependent), `str` of `np.str_` items as in numpy < 2 (feature names of `FingerprintDB`).
* numpy.linalg / scipy: exact inverse, determinant, Cholesky factor, singular values and eigenvalues; a singular matrix raises `LinAlgError`. The
  minimisers of scipy are oracles: any point within the bounds may be returned. `sqe_kernel` (scipy's `seuclidean`) is given one width per
  feature, as `kdict_setup` makes them; a single width for several features, which scipy refuses, is not modelled.
* sqlite: a table with an integer primary key; identifiers are not case sensitive; `GROUP_CONCAT` prints floats with 15 digits; at most 999 variables per statement.
* h5py 2: groups list their members in lexicographic order; `None` and Python objects cannot be stored.
* ASE: `FixAtoms`/`FixCartesian` masks (`True` = fixed); optimisers move atoms by a displacement that depends linearly on forces and
  velocities (contract in `Model/MLMin.lean`); `get_layers`, `string2symbols`, chemical formulas, neighbour lists and `natural_cutoffs` are parameters; `get_atoms_connections` and `get_atoms_distribution` leave out the atoms whose elements are in `no_count_types`.
* networkx: shortest path lengths with unit weights. mendeleev: table of element data as a parameter.
* Iteration order of a Python `set` of strings: any order.
* Strings in `periodic_table_data.py`: ASCII letters and digits for `isupper`, `isdigit` and `\d`.
* Files: `write_split`/`read_split` with a file system as a map from names to contents; json, pickle and npz return what was stored. The database of `hierarchy` returns the rows in the order they were inserted.
* NumPy floating point specials where they matter (C102): infinities and NaN as extra values beside the reals.
* Python ≥ 3.5 for dictionary order and division unless stated.

### Code that is not modelled

Plotting and printing, the command-line examples, docs and tests, `learning_curve/pltfile.py`, the paths of `placeholder.py` and `hierarchy` with `featselect_featvar=True` (which raise a `TypeError` at `np.vstack()` once the first subset of a level has been treated), `feature_frequency`, `api/magpie`,
`api/ase_data_setup.py` (data download), `featurize/asap_wrapper.py`,
`fingerprint/voro.py` and `prototype.py` apart from the formulas (calls of the external program Magpie), the density estimates in `utilities/distribution.py` beyond what C193-C195 name, the minimiser in `utilities/sammon.py`, `featurize/site_stability.py` except where a property names it, the numerical contents of the data tables.
