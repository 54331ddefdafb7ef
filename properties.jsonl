{"id": "C01", "title": "Multinormal ground truth is the true mutual information", "statement": "For a SplitMultinormal (and a BivariateNormalSampler) with any mean and any symmetric positive-definite covariance, the number returned by mutual_information() is the mutual information, i.e. the Kullback-Leibler divergence between the joint Gaussian law that sample() draws from and the product of its two marginals.", "quantifier": "every dim_x, dim_y >= 1, every mean vector, every symmetric positive-definite covariance matrix (and every correlation in (-1,1), std > 0 for the bivariate sampler)", "why_tests_cant": "Tests compare against a noisy k-NN estimate on a handful of covariances; the benchmark's ground truth has to be exact for every covariance.", "anchors": ["src/bmi/samplers/_splitmultinormal.py:SplitMultinormal.mutual_information", "src/bmi/samplers/_splitmultinormal.py:_Multinormal.entropy", "src/bmi/samplers/_splitmultinormal.py:BivariateNormalSampler.mutual_information"]}
{"id": "C02", "title": "Multinormal ground truth obeys the laws of mutual information", "statement": "The number reported by SplitMultinormal.mutual_information() is non-negative before the clamp, is zero exactly when X and Y are uncorrelated, does not change when X and Y swap roles, when the mean changes, or when X and Y undergo invertible linear maps; BivariateNormalSampler and SplitMultinormal agree on 2x2 matrices.", "quantifier": "every symmetric positive-definite covariance, every split of the coordinates, every pair of invertible matrices", "why_tests_cant": "Needs Fischer's determinant inequality for all sizes; tests only check the identity covariance.", "anchors": ["src/bmi/samplers/_splitmultinormal.py:SplitMultinormal.mutual_information", "src/bmi/samplers/_splitmultinormal.py:BivariateNormalSampler"]}
{"id": "C03", "title": "Covariance arguments are validated", "statement": "Constructing a multinormal (or Student-t) sampler succeeds only if the covariance has the right shape, is symmetric and is positive-definite; otherwise a ValueError is raised.", "quantifier": "every mean and covariance argument", "why_tests_cant": "The set of invalid matrices is infinite; no test feeds an asymmetric matrix.", "anchors": ["src/bmi/samplers/_splitmultinormal.py:_can_be_covariance", "src/bmi/samplers/_splitmultinormal.py:_Multinormal.__init__", "src/bmi/samplers/_splitmultinormal.py:SplitMultinormal._validate_shapes"]}
{"id": "C04", "title": "Additive-uniform ground truth is the true mutual information", "statement": "For X ~ U(0,1), N ~ U(-eps,eps) independent and Y = X+N, AdditiveUniformSampler(eps).mutual_information() is the mutual information of (X, Y); a non-positive eps is rejected.", "quantifier": "every real eps > 0 (and every eps <= 0 for the error)", "why_tests_cant": "Two analytic branches that must both be right on a continuum of eps.", "anchors": ["src/bmi/samplers/_additive_uniform.py:AdditiveUniformSampler"]}
{"id": "C05", "title": "Discrete-uniform mixture ground truth is the true mutual information", "statement": "For X uniform on {0..m-1} and Y|X ~ U(X, X+2), DiscreteUniformMixtureSampler(m).mutual_information() is the mutual information of (X, Y), the multivariate version reports the sum over coordinates, and m <= 0 is rejected.", "quantifier": "every m >= 1 and every finite list of such m", "why_tests_cant": "Infinite family of m; tests use m in {3,4,5} with a noisy estimator.", "anchors": ["src/bmi/samplers/_discrete_continuous.py:DiscreteUniformMixtureSampler", "src/bmi/samplers/_discrete_continuous.py:MultivariateDiscreteUniformMixtureSampler"]}
{"id": "C06", "title": "Zero-inflated Poissonization ground truth", "statement": "For X ~ Exp(1) and Y|X = p*delta_0 + (1-p)*Poisson(X), ZeroInflatedPoissonizationSampler(p).mutual_information(truncation) converges to the mutual information of (X, Y) as the truncation grows.", "quantifier": "every p in [0,1) and every truncation", "why_tests_cant": "The infinite sum and the integral over X cannot be evaluated by a test; the test's tolerance (0.05) hides the error for p > 0.", "anchors": ["src/bmi/samplers/_discrete_continuous.py:ZeroInflatedPoissonizationSampler.mutual_information"]}
{"id": "C07", "title": "Transforming X and Y by injective maps keeps the ground truth", "statement": "TransformedSampler reports the base sampler's mutual information; whenever the two transforms are injective (measurable with measurable image inverse) this is the true mutual information of the transformed pair, and in general it is an upper bound.", "quantifier": "every base distribution and every pair of transforms", "why_tests_cant": "Ranges over all distributions and all maps.", "anchors": ["src/bmi/samplers/_transformed.py:TransformedSampler.mutual_information", "src/bmi/samplers/_transformed.py:TransformedSampler.transform"]}
{"id": "C08", "title": "Concatenating independent samplers adds up mutual information", "statement": "IndependentConcatenationSampler reports the sum of the parts' mutual information and this is the true mutual information of the concatenated vectors; its dimensions are the sums of the parts' dimensions; an empty list is rejected.", "quantifier": "every finite list of samplers", "why_tests_cant": "Ranges over all lists of distributions.", "anchors": ["src/bmi/samplers/_independent_coordinates.py:IndependentConcatenationSampler"]}
{"id": "C09", "title": "Benchmark transforms are injective", "statement": "Every deterministic transform that the benchmark applies to a task (half-cube, asinh, wiggly, swiss roll, spiral, normal CDF, power with positive exponent, waves, rotation) is injective on the domain it is applied to, so that a transformed task really has the mutual information it advertises.", "quantifier": "every pair of points of the domain and every parameter value accepted", "why_tests_cant": "Injectivity is a statement about all pairs of reals.", "anchors": ["src/bmi/transforms/simple.py", "src/bmi/transforms/_rotate.py:Spiral", "src/bmi/benchmark/tasks/wiggly.py", "src/bmi/benchmark/tasks/power.py", "src/bmi/benchmark/tasks/mixtures.py", "src/bmi/benchmark/tasks/rotate.py", "src/bmi/benchmark/tasks/embeddings.py"]}
{"id": "C10", "title": "Spiral diffeomorphism preserves norms and is invertible", "statement": "For an antisymmetric generator and orthogonal initial matrix, Spiral maps every point to a point of the same Euclidean norm, is a bijection, and composing with the spiral of opposite speed (conjugated) undoes it; so_generator and skew_symmetrize return antisymmetric matrices and reject bad indices.", "quantifier": "every dimension, every antisymmetric generator, every speed, every point", "why_tests_cant": "Matrix exponential on all inputs; tests sample a few points.", "anchors": ["src/bmi/transforms/_rotate.py:Spiral", "src/bmi/transforms/_rotate.py:so_generator", "src/bmi/transforms/_rotate.py:skew_symmetrize"]}
{"id": "C11", "title": "Student-t ground truth", "statement": "SplitStudentT reports the mutual information of a multinormal with covariance equal to the dispersion plus a correction depending only on the degrees of freedom and the dimensions; the correction is non-negative, symmetric in the two dimensions and the total is the mutual information of the multivariate Student-t law; covariance() fails exactly for df <= 2.", "quantifier": "every df > 0, all dimensions, every positive-definite dispersion", "why_tests_cant": "Continuum of degrees of freedom and all dispersion matrices.", "anchors": ["src/bmi/samplers/_split_student_t.py:SplitStudentT", "src/bmi/samplers/_split_student_t.py:_differential_entropy"]}
{"id": "C12", "title": "Student-t with infinite degrees of freedom is a Gaussian", "statement": "As documented, passing df = inf to SplitStudentT gives a Gaussian, in particular mutual_information() is the Gaussian mutual information.", "quantifier": "every dimension and dispersion", "why_tests_cant": "Float special-value behaviour for every dimension; no test passes inf.", "anchors": ["src/bmi/samplers/_split_student_t.py:SplitStudentT.__init__", "src/bmi/samplers/_split_student_t.py:_differential_entropy"]}
{"id": "C13", "title": "canonical_correlation builds a valid covariance with the advertised information", "statement": "canonical_correlation(rho, additional_y) returns a symmetric unit-diagonal matrix whose only off-diagonal entries link X_i with Y_i by rho_i; it is positive-definite exactly when all |rho_i| < 1, and the corresponding multinormal has mutual information -1/2 * sum log(1-rho_i^2).", "quantifier": "every list rho and every additional_y >= 0", "why_tests_cant": "All sizes and all correlations.", "anchors": ["src/bmi/samplers/_matrix_utils.py:canonical_correlation"]}
{"id": "C14", "title": "parametrised_correlation_matrix has the documented block structure", "statement": "parametrised_correlation_matrix returns a symmetric unit-diagonal matrix in which any two distinct X coordinates are correlated by correlation_x, any two distinct Y coordinates by correlation_y, X_i with Y_i by correlation for i < k, with every other entry zero; it raises ValueError exactly when not 1 <= k <= min(dim_x, dim_y) or a correlation is outside [-1, 1] (which does not make every returned matrix a covariance matrix).", "quantifier": "all dimensions, numbers of correlated coordinates and correlation values", "why_tests_cant": "Loop nest writing into an array; every size and overlap of writes.", "anchors": ["src/bmi/samplers/_matrix_utils.py:parametrised_correlation_matrix", "src/bmi/samplers/_matrix_utils.py:_validate"]}
{"id": "C15", "title": "GaussianLVMParametrization covariance is the covariance of its latent-variable model", "statement": "For all parameters, the covariance returned equals M * M^T for the mixing matrix M returned by the same object (so it is the covariance of the linear latent-variable model), is symmetric positive-semidefinite, is positive-definite when the private noise terms are non-zero, and correlation has unit diagonal.", "quantifier": "all dimensions, interaction counts and real parameters", "why_tests_cant": "Two independent code paths (closed form and mixing matrix) must agree for all sizes.", "anchors": ["src/bmi/samplers/_matrix_utils.py:GaussianLVMParametrization"]}
{"id": "C16", "title": "Dense and sparse LVM parametrisations report the right correlation", "statement": "DenseLVMParametrization.correlation_strength and SparseLVMParametrization.correlation_interacting equal the off-diagonal entries between interacting X and Y features of the correlation matrix.", "quantifier": "all dimensions and parameters", "why_tests_cant": "Closed form vs. matrix, all sizes.", "anchors": ["src/bmi/samplers/_matrix_utils.py:DenseLVMParametrization", "src/bmi/samplers/_matrix_utils.py:SparseLVMParametrization"]}
{"id": "C17", "title": "Reported dimensions are those of the samples", "statement": "Every sampler exposes dim_x, dim_y >= 1 and sample(n) returns arrays of shapes (n, dim_x) and (n, dim_y) that together are the draw from the joint law, split at dim_x.", "quantifier": "every sampler class, every n >= 1, all constructor arguments", "why_tests_cant": "Composition of samplers is unbounded (transform of concatenation of ...).", "anchors": ["src/bmi/samplers/base.py:BaseSampler", "src/bmi/samplers/_transformed.py", "src/bmi/samplers/_independent_coordinates.py", "src/bmi/samplers/_discrete_continuous.py", "src/bmi/samplers/_splitmultinormal.py", "src/bmi/samplers/_split_student_t.py:SplitStudentT.sample"]}
{"id": "C18", "title": "Integer seeds and keys are interchangeable and sampling is deterministic", "statement": "Sampling with an integer seed equals sampling with the PRNG key made from it, for every sampler composed from the library, and the base samples underlying a transformed sampler are those of the base sampler with the same seed.", "quantifier": "every seed, every sampler built from transforms and concatenations", "why_tests_cant": "Unbounded nesting of samplers.", "anchors": ["src/bmi/samplers/base.py:cast_to_rng", "src/bmi/samplers/_transformed.py:TransformedSampler.sample", "src/bmi/samplers/_independent_coordinates.py:IndependentConcatenationSampler.sample"]}
{"id": "C19", "title": "Numerical CDF inversion is accurate and terminates", "statement": "invert_cdf of a strictly increasing continuous function returns, for every target strictly between the values at the end points, a point within delta of the true preimage; targets outside saturate at the end points; the loop always terminates.", "quantifier": "every monotone function, every target, every bracket and delta > 0", "why_tests_cant": "Quantifies over functions.", "anchors": ["src/bmi/transforms/_invert_cdf.py:invert_mono"]}
{"id": "C20", "title": "Binary search over parameters only returns values meeting the target", "statement": "The parameter search used for high-MI experiments returns a value only if the function at that value is within delta of the target; otherwise it returns None; it evaluates the function at most max_iter times.", "quantifier": "every function (including ones raising ValueError), target, bracket, delta and iteration limit", "why_tests_cant": "Quantifies over functions and failures.", "anchors": ["workflows/projects/Beyond_Normal/_high_mi_utils.py"]}
{"id": "C21", "title": "Mixtures of joint distributions have the mixed marginals", "statement": "mixture(proportions, components) yields a joint distribution whose declared marginals are the marginals of the declared joint; mismatching dimensions or lengths raise ValueError.", "quantifier": "every list of component distributions and every vector of proportions", "why_tests_cant": "Ranges over all distributions.", "anchors": ["src/bmi/samplers/_tfp/_core.py:mixture"]}
{"id": "C22", "title": "Pointwise mutual information is invariant under transforms", "statement": "transform(dist, f, g) has at (f(x), g(y)) the same PMI as dist at (x, y), for any bijectors; hence the same Monte Carlo estimate for the same key and the same analytic value; product distributions have PMI zero everywhere.", "quantifier": "every distribution, every pair of diffeomorphisms, every point, every key", "why_tests_cant": "Ranges over all distributions and bijectors.", "anchors": ["src/bmi/samplers/_tfp/_core.py:transform", "src/bmi/samplers/_tfp/_core.py:JointDistribution.pmi", "src/bmi/samplers/_tfp/_product.py", "src/bmi/samplers/_tfp/_core.py:monte_carlo_mi_estimate"]}
{"id": "C23", "title": "BMM sampler estimates its mutual information once and then sticks to it", "statement": "BMMSampler.mutual_information() returns the value supplied by the user (even 0.0) or else a Monte Carlo estimate computed at most once with the configured seed and size; all later calls return the same value irrespective of interleaved sampling.", "quantifier": "every interleaving of calls to sample and mutual_information", "why_tests_cant": "History property.", "anchors": ["src/bmi/samplers/_tfp/_wrapper.py:BMMSampler"]}
{"id": "C24", "title": "Fast and reference KSG estimators agree for every chunk size", "statement": "KSGEnsembleFirstEstimator gives for every chunk size and every tie-breaking of its sort exactly the predictions of KSGEnsembleFirstEstimatorSlow on the same data.", "quantifier": "every data set, every list of neighborhoods, every positive chunk size, every sorting permutation", "why_tests_cant": "Chunk sizes and data sets unbounded; the test only tries distinct neighbourhoods.", "anchors": ["src/bmi/estimators/ksg.py:KSGEnsembleFirstEstimator.fit", "src/bmi/estimators/ksg.py:KSGEnsembleFirstEstimatorSlow.fit"]}
{"id": "C25", "title": "KSG estimate does not depend on order, roles or isometric coordinates", "statement": "The KSG predictions are unchanged by permuting the samples, and by swapping X with Y (and the metrics). Without standardisation they are unchanged by any change of coordinates that preserves the pairwise distances or multiplies all of them by one constant. With standardisation they are unchanged by rescaling and shifting each column.", "quantifier": "every data set, permutation and distance-preserving map", "why_tests_cant": "Ranges over all permutations and isometries.", "anchors": ["src/bmi/estimators/ksg.py:KSGEnsembleFirstEstimator"]}
{"id": "C26", "title": "KSG predictions are finite, non-negative and bounded", "statement": "Each KSG prediction is non-negative; on data without ties it lies in [0, digamma(n) - digamma(k)] for neighbourhood k; on every data set it is a finite number.", "quantifier": "every data set of n > k points", "why_tests_cant": "All data sets, including those with repeated points.", "anchors": ["src/bmi/estimators/ksg.py:KSGEnsembleFirstEstimator.fit"]}
{"id": "C27", "title": "KSG parameter validation and fit/predict protocol", "statement": "An empty neighbourhood list or a neighbourhood below 1 is rejected on construction; fitting with no more points than the largest neighbourhood raises ValueError; get_predictions raises until a fit has succeeded and afterwards returns one value per distinct neighbourhood of the last successful fit, as a copy; estimate is the mean of the predictions.", "quantifier": "every sequence of fit / get_predictions / estimate calls, including failing ones", "why_tests_cant": "History property with failures.", "anchors": ["src/bmi/estimators/ksg.py:KSGEnsembleParameters", "src/bmi/estimators/ksg.py:KSGEnsembleFirstEstimator"]}
{"id": "C28", "title": "Histogram estimator is the plug-in mutual information", "statement": "HistogramEstimator returns the mutual information of the empirical joint distribution of (cell of x, cell of y); it lies between 0 and the log of the smaller number of cells, is symmetric in X and Y, and does not depend on the order of the samples.", "quantifier": "every non-empty data set, all bin counts and dimensions", "why_tests_cant": "All data and all bin counts; needs Gibbs' inequality.", "anchors": ["src/bmi/estimators/_histogram.py:HistogramEstimator.estimate"]}
{"id": "C29", "title": "Linear- and quadratic-memory neural objectives agree", "statement": "For every critic and every batch of at least two points, InfoNCE, Donsker-Varadhan and NWJ values computed by the linear-memory backend equal those of the quadratic-memory backend.", "quantifier": "every critic function and batch", "why_tests_cant": "All critics and batches.", "anchors": ["src/bmi/estimators/neural/_backend_linear_memory.py", "src/bmi/estimators/neural/_backend_quadratic_memory.py"]}
{"id": "C30", "title": "Neural objectives obey their variational bounds", "statement": "InfoNCE never exceeds log(batch size); NWJ never exceeds Donsker-Varadhan on the same critic and batch; Donsker-Varadhan is unchanged by adding a constant to the critic, InfoNCE by adding any function of x; objectives do not depend on the order of the batch.", "quantifier": "every critic and batch", "why_tests_cant": "All critics; inequalities.", "anchors": ["src/bmi/estimators/neural/_backend_linear_memory.py", "src/bmi/estimators/neural/_backend_quadratic_memory.py"]}
{"id": "C31", "title": "Donsker-Varadhan and NWJ lower-bound the true mutual information", "statement": "The population versions of the NWJ / Donsker-Varadhan / InfoNCE objectives never exceed the true mutual information.", "quantifier": "every joint law and every critic, bounded or not, for which the objective has an expectation (critic integrable under the joint law and, for InfoNCE, under the product of the marginals; its exponential integrable under the product for NWJ and Donsker-Varadhan)", "why_tests_cant": "Ranges over all laws.", "anchors": ["src/bmi/estimators/neural/_backend_linear_memory.py:nwj", "src/bmi/estimators/neural/_backend_linear_memory.py:donsker_varadhan"]}
{"id": "C32", "title": "Training runs a bounded number of steps and tests on schedule", "statement": "Neural training performs at most max_n_steps optimisation steps, evaluates the test objective exactly at the multiples of test_every_n_steps, and stops early exactly at the first test evaluation where the early-stopping rule fires (if enabled).", "quantifier": "every configuration and every sequence of objective values", "why_tests_cant": "Ranges over all loss trajectories.", "anchors": ["src/bmi/estimators/neural/_basic_training.py:basic_training", "src/bmi/estimators/neural/_training_log.py:TrainingLog"]}
{"id": "C33", "title": "Reported neural estimate is the best test value", "statement": "The reported mutual information is the maximum of the test-set history (NaN if the test objective was never evaluated).", "quantifier": "every sequence of logged values, including NaN", "why_tests_cant": "All histories.", "anchors": ["src/bmi/estimators/neural/_training_log.py:TrainingLog.final_mi"]}
{"id": "C34", "title": "Early stopping fires only after two consecutive non-improvements", "statement": "early_stop() is true exactly when at least two tests have failed to improve on the best value since the last improvement; logging another improvement re-arms it.", "quantifier": "every sequence of logged values", "why_tests_cant": "All histories.", "anchors": ["src/bmi/estimators/neural/_training_log.py:TrainingLog.early_stop", "src/bmi/estimators/neural/_training_log.py:TrainingLog.log_test_mi"]}
{"id": "C35", "title": "Training diagnostics never crash and flag what they say", "statement": "detect_warnings() never raises, reports 'too short' exactly when the smoothing window is empty, flags a decrease exactly when the maximum of the smoothed training values exceeds 1.05 times the final one, and flags still-increasing training accordingly.", "quantifier": "every history of train and test values", "why_tests_cant": "All histories, window arithmetic.", "anchors": ["src/bmi/estimators/neural/_training_log.py:TrainingLog.detect_warnings"]}
{"id": "C36", "title": "MINE denominator is an exponential moving average", "statement": "In MINE training, the smoothed denominator after t steps is the exponential moving average of the batch denominators with the configured smoothing; with smoothing off the gradient equals the plain Donsker-Varadhan gradient; at the start smoothing is negligible.", "quantifier": "every sequence of batches and every smoothing constant", "why_tests_cant": "Unbounded number of steps.", "anchors": ["src/bmi/estimators/neural/_mine_estimator.py"]}
{"id": "C37", "title": "Mini-batches keep X and Y paired and train/test sets disjoint", "statement": "Batches and the train/test split used by the neural estimators contain only pairs (x_i, y_i) of the original data, train and test parts are disjoint and together cover the data; a batch size exceeding the number of training points gives a NaN result and leaves the estimator usable.", "quantifier": "every data set, permutation, batch size and split fraction", "why_tests_cant": "Ranges over all permutations.", "anchors": ["src/bmi/estimators/neural/_basic_training.py:get_batch", "src/bmi/estimators/neural/_estimators.py:train_test_split", "src/bmi/estimators/neural/_mine_estimator.py"]}
{"id": "C38", "title": "Running an estimator never loses a run and reports failures", "statement": "run_estimator on a readable sample always returns a result carrying task id, seed, sample size and parameters; it reports success exactly when the estimator raised no exception, and on failure the estimate is NaN and the error message is recorded.", "quantifier": "every estimator (any exception), task and sample", "why_tests_cant": "All failures.", "anchors": ["src/bmi/benchmark/result.py:run_estimator"]}
{"id": "C39", "title": "Running an estimator does not modify its arguments", "statement": "run_estimator leaves the additional_information dictionary given by the caller unchanged, so information of one run never leaks into another.", "quantifier": "every sequence of runs sharing a dictionary", "why_tests_cant": "History/aliasing property.", "anchors": ["src/bmi/benchmark/result.py:run_estimator"]}
{"id": "C40", "title": "Saving and reading a sample is the identity", "statement": "read_sample(save_sample(x, y)) returns the same two arrays split in the same place, and read_sample_dims returns their dimensions; arrays of wrong rank or different lengths are refused.", "quantifier": "all arrays of any dimensions (column counts >= 10 included)", "why_tests_cant": "All shapes; column naming collisions.", "anchors": ["src/bmi/utils.py:save_sample", "src/bmi/utils.py:read_sample", "src/bmi/utils.py:read_sample_dims"]}
{"id": "C41", "title": "Chunker partitions the index range", "statement": "The slices produced by chunker cover 0..n-1 exactly once, in order, each of size chunk_size except possibly the last, never empty; non-positive arguments raise ValueError.", "quantifier": "all n and chunk sizes", "why_tests_cant": "All sizes.", "anchors": ["src/bmi/utils.py:chunker"]}
{"id": "C42", "title": "ProductSpace keeps pairing and standardises columns", "statement": "ProductSpace(x, y) rejects arrays of different lengths, keeps rows paired (row i of the concatenation is x_i followed by y_i), leaves the caller's arrays unchanged, and with standardize gives every non-constant column mean 0 and variance 1, and constant columns all zero; standardised data are invariant to shifting and positive rescaling of the inputs. Empty arrays cannot be standardised (ValueError); len counts the points.", "quantifier": "all data sets", "why_tests_cant": "All data.", "anchors": ["src/bmi/utils.py:ProductSpace"]}
{"id": "C43", "title": "A task advertises exactly its sampler", "statement": "Task.sample/dim/mutual_information delegate to the sampler; a task whose sampler reports a non-negative mutual information has all metadata accessible, in particular its id is always the id given at construction.", "quantifier": "every sampler and metadata", "why_tests_cant": "All samplers.", "anchors": ["src/bmi/benchmark/task.py:Task", "src/bmi/benchmark/task.py:TaskMetadata"]}
{"id": "C44", "title": "Task identifiers are unique and determine the task", "statement": "All registered benchmark tasks have different identifiers, each can be looked up by its identifier, and two differently parametrised tasks never share one.", "quantifier": "the registry and all parametrisations of each task constructor", "why_tests_cant": "Uniqueness over all parameter values.", "anchors": ["src/bmi/benchmark/task_list.py", "src/bmi/benchmark/__init__.py", "src/bmi/benchmark/tasks/spiral.py", "src/bmi/benchmark/tasks/multinormal.py", "src/bmi/benchmark/tasks/scaling.py"]}
{"id": "C45", "title": "YAML dump of task metadata round-trips", "statement": "Dumping metadata containing numpy scalars/arrays, paths and enums yields the same YAML as dumping the corresponding plain Python value, at every nesting depth.", "quantifier": "every nested metadata value", "why_tests_cant": "Unbounded nesting.", "anchors": ["src/bmi/benchmark/utils/dict_dumper.py:DictDumper"]}
{"id": "C46", "title": "Timer reports elapsed time", "statement": "Timer.check returns the time since the last reset; with a non-decreasing clock it is never negative and successive check_and_reset intervals never overlap.", "quantifier": "every non-decreasing clock and sequence of calls", "why_tests_cant": "All clocks/histories.", "anchors": ["src/bmi/benchmark/utils/timer.py:Timer"]}
{"id": "C47", "title": "External estimators are invoked with the right arguments", "statement": "The command line built for the R/Julia estimators names the right sample file, dimensions and parameters; the numerical output is parsed to the estimate; every parameter value accepted on construction is accepted by the external script and vice versa for documented values.", "quantifier": "all parameter values, paths and outputs", "why_tests_cant": "All parameter values.", "anchors": ["src/bmi/estimators/external/external_estimator.py", "src/bmi/estimators/external/r_estimators.py", "src/bmi/estimators/external/julia_estimators.py", "external/rmi.R", "external/mi_estimator.jl"]}
{"id": "C48", "title": "Gaussian mixture posterior estimator honours its configuration", "statement": "The Bayesian GMM estimator advances its random key on every run, uses all the configured hyperparameters, refuses to give a distribution before it has run, and thins/averages over the configured number of posterior samples.", "quantifier": "every sequence of calls", "why_tests_cant": "History property; optional dependency not installed in tests.", "anchors": ["src/bmi/estimators/external/gmm.py"]}
{"id": "C49", "title": "Subplot layout places axes exactly", "statement": "subplots_from_axsize gives a grid where the axis in row r, column c has exactly the requested width and height, and the figure size is the sum of all sizes, spaces and margins.", "quantifier": "all numbers of rows/columns and all sizes", "why_tests_cant": "All layouts.", "anchors": ["src/bmi/plot_utils/subplots_from_axsize.py"]}
{"id": "C50", "title": "Benchmark tables use the requested sample size", "statement": "The benchmark and convergence tables built from results aggregate only runs with the requested number of samples, for each task and estimator, and report the mean.", "quantifier": "all result collections and sample sizes", "why_tests_cant": "All result sets.", "anchors": ["workflows/benchmark/_utils.py"]}
{"id": "C51", "title": "CCA estimator reports Gaussian mutual information of canonical correlations", "statement": "CCAMutualInformationEstimator returns the sum over canonical components of -1/2 log(1-rho^2); it is non-negative and invariant to permutation of the samples.", "quantifier": "all data sets and all outputs of the CCA fit", "why_tests_cant": "All data.", "anchors": ["src/bmi/estimators/correlation.py"]}
{"id": "C52", "title": "KDE estimator combines the three entropies", "statement": "The KDE estimator's mutual information is h(x)+h(y)-h(x,y) of the fitted densities evaluated on the data, with omitted x and y parameters taken from the xy parameters.", "quantifier": "all data sets and parameter combinations", "why_tests_cant": "All parameter combinations.", "anchors": ["src/bmi/estimators/_kde.py"]}
{"id": "C53", "title": "Critic network shapes compose", "statement": "The MLP critic has one linear layer more than hidden sizes, consecutive layers fit, it accepts every input pair of the declared dimensions and returns one scalar; wrong dimensions are refused.", "quantifier": "all dimensions and hidden layer lists", "why_tests_cant": "All architectures.", "anchors": ["src/bmi/estimators/neural/_critics.py"]}
{"id": "C54", "title": "Bimodal task has the advertised mutual information", "statement": "The bimodal task obtained from a binormal sampler through the normal CDF and the numerical inverse of a mixture CDF draws points whose marginals follow the two documented Gaussian mixtures and whose mutual information is the one it reports.", "quantifier": "every correlation in (-1, 1)", "why_tests_cant": "Mutual information and marginal laws of a transformed continuous distribution are not observable from samples.", "anchors": ["src/bmi/benchmark/tasks/bimodal_gaussians.py", "src/bmi/transforms/_invert_cdf.py"]}
{"id": "C55", "title": "Student-t mutual information is finite for every accepted number of degrees of freedom", "statement": "SplitStudentT.mutual_information() returns a finite number for every df the constructor accepts.", "quantifier": "every df > 0 and all dimensions", "why_tests_cant": "Overflow behaviour over a continuum of degrees of freedom; tests use small df only.", "anchors": ["src/bmi/samplers/_split_student_t.py:_differential_entropy", "src/bmi/samplers/_split_student_t.py:SplitStudentT.mutual_information"]}
{"id": "C56", "title": "Student-t sampler returns arrays of the advertised shapes", "statement": "SplitStudentT.sample(n, rng) returns arrays of shapes (n, dim_x) and (n, dim_y) for every number of points and every admissible seed.", "quantifier": "all numbers of points, dimensions, dispersions and seeds", "why_tests_cant": "All sizes and seeds; the squeeze done by SciPy only shows for one point.", "anchors": ["src/bmi/samplers/_split_student_t.py:SplitStudentT.sample"]}
{"id": "C57", "title": "Gaussian and Student-t benchmark tasks have the advertised structure and mutual information", "statement": "The dense tasks have unit variances and all correlations equal to off_diag, and are accepted exactly when that matrix is positive-definite; the sparse and 2-pair tasks have n_interacting correlated pairs with correlation strength^2/(1+strength^2) and no other correlation; the latent-variable task is accepted for every 0 <= n_interacting <= min(dim_x, dim_y). The reported mutual information is that of the sampled law, with the corresponding closed forms.", "quantifier": "all dimensions, correlations, strengths, numbers of interacting pairs and degrees of freedom", "why_tests_cant": "Continuum of parameters in all dimensions.", "anchors": ["src/bmi/benchmark/tasks/multinormal.py", "src/bmi/benchmark/tasks/student.py"]}
{"id": "C58", "title": "Pointwise mutual information is the log-density and its Monte Carlo mean an honest estimate", "statement": "exp(pmi) is the density of the joint law with respect to the product of its marginals, so pmi is finite almost surely and the mutual information is its mean. monte_carlo_mi_estimate(key, dist, n) is almost surely a finite number, unbiased, with variance Var[pmi]/n, and its squared standard error estimates this variance up to the factor (n-1)/n; large deviations have the probability bounded by Chebyshev. For mixtures of normal distributions no further assumption is needed.", "quantifier": "every joint distribution built consistently, every number of points", "why_tests_cant": "Bias and variance are properties of the law of the estimate, not of one estimate.", "anchors": ["src/bmi/samplers/_tfp/_core.py:JointDistribution.pmi", "src/bmi/samplers/_tfp/_core.py:pmi_profile", "src/bmi/samplers/_tfp/_core.py:monte_carlo_mi_estimate"]}
{"id": "C59", "title": "Mixing creates at most the entropy of the proportions", "statement": "The mutual information of mixture(w, components) is at most the weighted mean of those of the components plus the entropy of w, hence at most log K for K components without information; it is finite if theirs are.", "quantifier": "every list of component distributions and every vector of proportions", "why_tests_cant": "Mutual information of mixtures has no closed form; tests compare with estimates.", "anchors": ["src/bmi/samplers/_tfp/_core.py:mixture", "docs/bmm.md"]}
{"id": "C60", "title": "Reported mutual information of a BMM sampler is not negative", "statement": "BMMSampler.mutual_information() is not negative, as required by TaskMetadata.mi_true.", "quantifier": "every distribution, key and number of points", "why_tests_cant": "A negative estimate has positive but small probability for the seeds and sizes used in tests.", "anchors": ["src/bmi/samplers/_tfp/_wrapper.py:BMMSampler.mutual_information", "src/bmi/samplers/_tfp/_core.py:monte_carlo_mi_estimate", "src/bmi/benchmark/task.py"]}
{"id": "C61", "title": "A critic without hidden layers reports no information", "statement": "With hidden_layers=() the critic is a sum of a function of x and a function of y, whatever its weights. The InfoNCE, Donsker-Varadhan, NWJ and MINE values of such a critic are never positive, so no neural estimator with this critic reports positive mutual information.", "quantifier": "every data set, weights, seed, split and batch order", "why_tests_cant": "A statement about all weights reachable in training and all data.", "anchors": ["src/bmi/estimators/neural/_critics.py", "src/bmi/estimators/neural/_estimators.py", "src/bmi/estimators/neural/_mine_estimator.py"]}
{"id": "C62", "title": "Neural estimators are total on valid input", "statement": "A MINE estimator whose parameters were accepted never raises on paired data with enough points for the split. It reports NaN exactly if the batch does not fit into the training part or no test is made before the last step; otherwise it reports the largest test value. Results do not depend on earlier calls of the same object, and an accepted object keeps exactly the parameters it was given.", "quantifier": "every accepted parameter set and every pair of arrays of equal length", "why_tests_cant": "Ranges over all parameter combinations.", "anchors": ["src/bmi/estimators/neural/_mine_estimator.py:MINEEstimator", "src/bmi/estimators/neural/_estimators.py:NeuralEstimatorBase"]}
{"id": "C63", "title": "Mixture benchmark tasks sample the advertised laws and encode information", "statement": "task_x, task_ai, task_galaxy, task_waves, task_concentric_multinormal and task_multinormal_sparse_w_inliers build the mixtures they describe, draw independent points from them, and report a number whose mean over keys is the mutual information of the sampled law; the spiral and the waves do not change it. The X distribution has standard normal marginals and no correlation; at most -log(1-rho^2)/2 is encoded there, at most log 2 by Galaxy, log min(n, 4) by Waves, log n by n concentric distributions, and a fraction 1-eps of the signal with inliers. The mutual information vanishes only for rho = 0, coinciding balls, one component, or inliers only / no signal. Other arguments are refused with AssertionError or ValueError.", "quantifier": "all correlations, distances, speeds, amplitudes, frequencies, numbers of components, dimensions, strengths and fractions", "why_tests_cant": "The mutual information of these laws has no closed form, so a test can only compare two estimates.", "anchors": ["src/bmi/benchmark/tasks/mixtures.py"]}
{"id": "C64", "title": "Tasks that preprocess samples keep what they advertise and the order of the data", "statement": "transform_rescale, transform_uniformise and transform_gaussianise report the dimensions, mutual information and parameters of the base task and its id and name with a prefix; their samples are those of the base task with X and Y transformed separately. Rescaling moves each column by an increasing affine map to mean zero and variance one. Uniformising maps each column into [0, 1] without changing order or ties, and does not depend on the units of the columns. With at least as many quantiles as points, a column without ties is replaced by its ranks divided by n - 1. Gaussianising never reverses the order. scale_tasks keeps keys, ids, names and ground truths.", "quantifier": "every base task, sample, number of quantiles, seed, given name and id", "why_tests_cant": "Ranges over all samples; which points are merged depends on thresholds inside scikit-learn that random tests do not reach.", "anchors": ["src/bmi/benchmark/tasks/scaling.py", "workflows/projects/Mixtures/_benchmark_rules.smk:scale_tasks"]}
{"id": "C65", "title": "PMI profile of a multivariate normal distribution", "statement": "For MultivariateNormalDistribution, pmi_profile(key, dist, n) returns n finite numbers that are independent over keys, each distributed as I(X;Y) + x.C y with independent standard normal vectors x and y, where C is the whitened cross-covariance. So the profile is symmetric about the mutual information, has mean I(X;Y) and variance equal to the sum of squared entries of C. For canonical_correlation(rho, additional_y) it is I + sum rho_i/2 (U_i^2 - V_i^2), a combination of chi-square variables, with I = -1/2 sum log(1-rho_i^2) and variance sum rho_i^2, whatever additional_y is.", "quantifier": "every mean, positive definite covariance, number of points, list of correlations below one in absolute value, and additional_y", "why_tests_cant": "The script of the project compares two histograms of 20000 points for four matrices.", "anchors": ["src/bmi/samplers/_tfp/_core.py:pmi_profile", "src/bmi/samplers/_tfp/_normal.py:MultivariateNormalDistribution", "src/bmi/samplers/_matrix_utils.py:canonical_correlation", "scripts/Mixtures/validate_chi2_combination.py"]}
{"id": "C66", "title": "The benchmark workflow reports each run once and correctly", "statement": "For a usable configuration (different names of estimators and ids of tasks, no line breaks in names, no slash in task ids, no negative seeds) results.csv has exactly one line for each combination of an estimator, a task, a number of samples and a seed; the line reports what that estimator did on the sample of that task of that size with that seed, next to the ground truth, name and parameters of that task. An exception in one estimator is a line of its own and stops nothing. The shipped configurations are usable. Outside of these conditions runs are lost or misattributed: negative seeds fail, a slash in a task id moves its first part to the estimator, and of tasks sharing an id only the last is run.", "quantifier": "every configuration, sampler and estimator", "why_tests_cant": "Which parts of a path Snakemake takes for which wildcard depends on all names in the configuration; the workflow has no tests.", "anchors": ["workflows/benchmark/_common_benchmark_rules.smk", "workflows/benchmark/v1/config.py", "workflows/benchmark/v2/config.py", "workflows/benchmark/demo/config.py"]}
{"id": "C67", "title": "The benchmark figures show what the results say", "statement": "n_samples_needed returns the smallest tested number of samples from which on all tested numbers are solved, infinity if the largest is not, NaN only without data; solved means that the mean log relative error is below log 1.5, for a single run that the estimate is within a factor 1.5 of the truth. A run counts as failed exactly if the estimator is neural and the estimate is negative or below a tenth of the largest for the same estimator, task and size. The three figures have one row per task and one column per estimator in the given order, with the average of the runs not failed at the largest size next to the ground truth of that task, the number of samples needed, and the number of failed runs. If a task has no run to show, or an estimator has no display name, the figure of the estimates raises. Negative and NaN estimates do not count against an estimator; tasks without information are never solved.", "quantifier": "every table of results, list of estimators and dictionary of tasks", "why_tests_cant": "Ranges over all tables; the plotting code has no tests.", "anchors": ["workflows/projects/Beyond_Normal/_common_figure_utils.py"]}
{"id": "C68", "title": "Reading results keeps what was measured; the table of the paper", "statement": "read_results returns one row for each line of results.csv, with every parameter of the task as a column of its own. A column of the file is as in the file unless the task has a parameter of that name, which then replaces it; no task of the package, however transformed, has such a parameter. A bound on the estimates keeps exactly the rows below it and drops NaN, and raises KeyError for an empty table. A parameter of a transformation replaces one of the base task with the same name. The table of the paper has one cell for each estimator and task with the mean of the estimates and their sample standard deviation rounded up to hundredths (NaN for fewer than two), and the ground truth of every task; it averages over all sample sizes although one is requested. All tasks of version 2 have different names there.", "quantifier": "every table of results, reader of YAML, and nesting of task constructors", "why_tests_cant": "Ranges over all tables and nested tasks; the scripts have no tests.", "anchors": ["workflows/benchmark/_utils.py:read_results", "workflows/projects/Beyond_Normal/_common_figure_utils.py:read_results", "workflows/projects/Mixtures/v2_results_table.smk", "src/bmi/benchmark/tasks"]}
{"id": "C69", "title": "Tasks between dense and sparse interactions have the wanted information", "statement": "The latent variable task with d pairs has mutual information (d-1) g(lambda^2) + g(lambda^2 + d alpha^2) with g(s) = log(1+s) - log(1+2s)/2; with k pairs and alpha = 0 it has k g(lambda^2). get_initial_alpha, get_lambda_task and get_n_interacting_task return, whenever the wanted number lies between the information at strength 0 and at strength 10, a task (or its alpha) with the given number of pairs whose information is within 1e-4 of the wanted number; if the number is out of reach they raise AssertionError. Dimensions below one are refused. The figure has 19 tasks with different identifiers, each with information 1 up to 1e-4; INITIAL_ALPHA is 18865/16384; the covariances shown are those of the samples; for equal information larger alpha means smaller lambda.", "quantifier": "every dimension (up to 2^3995), number of pairs, alpha and wanted mutual information, in real arithmetic", "why_tests_cant": "The number of pairs and the target range over infinitely many values, and failure of the search depends on the range of an information that the tests never compute.", "anchors": ["workflows/projects/Beyond_Normal/_sparsity_utils.py", "workflows/projects/Beyond_Normal/figure_sparsity.smk", "src/bmi/benchmark/tasks/multinormal.py:task_multinormal_lvm"]}
{"id": "C70", "title": "Contamination of a signal by noise", "statement": "In the contamination experiment every mixture of the signal with a fraction alpha of noise of variance v leaves the law of the first variable unchanged and has at most (1-alpha) I and at least (1-alpha) I - H(alpha) of mutual information, where I = -1/2 (log(1-(400/500)^2) + log(1-(400/502)^2)) is the information of the signal, which is also its analytic value; more contamination by the same noise never adds information. The experiment has 39 tasks with different identifiers: for each of the nine levels 0.001, 0.01, 0.05, 0.1, 0.15, 0.2, 0.3, 0.4, 0.5 one with noise of variance 1 and one of variance 25, and for each of 21 variances (the powers 2^e with e=-7,...,-3 and 4,...,7 and e=-2,-1.5,...,3.5) one at level 0.2. Each panel of the figure shows the rows of the tasks of its kind and no others. The reference line of the variance panel is the Monte Carlo estimate for the mixture of that variance with 100000 points; that of the mixing panels is the average, over the seeds 0..9, of the estimates for the mixture of that level, next to that level, read back from the names of the files.", "quantifier": "every source of randomness drawing from the right laws, every way of printing numbers without slashes and letters other than e that reads back, every positive variance and level, all rows of results", "why_tests_cant": "Mutual information of mixtures has no closed form, so no test compares it; levels and variances travel through file names.", "anchors": ["workflows/projects/Mixtures/outliers.smk", "src/bmi/samplers/_tfp/_wrapper.py:BMMSampler", "src/bmi/samplers/_tfp/_core.py:mixture"]}
{"id": "C71", "title": "What the bounds make of a known pointwise mutual information", "statement": "In the experiment on integration, estimates.csv of each of the four setups has one row for each of the sizes 8, 16, ..., 8192, seeds 0..19 and estimators NWJ, InfoNCE, DV, MC. Over the keys, for every size, and with I the mutual information of the distribution and g the bias of the critic: the Monte Carlo average has expectation I + E g, NWJ (with the critic raised by 1) has expectation I + 1 + E g - E exp g, InfoNCE has expectation at most I and never exceeds log n, and DV is never below NWJ. So with unbiased critics MC and NWJ are unbiased and DV does not underestimate in expectation; with the constant bias MC is 1/2 too large for every key, NWJ is too small by 0.14 to 0.15, DV and InfoNCE are unchanged for every key; with the bias sin(x^2) InfoNCE is unchanged for every key and NWJ is too small. For the 25-dimensional normal distribution I = 25 log(5/3), and every value of InfoNCE is more than 3 below. The dotted lines average over the seeds 0..9 unbiased estimates of I, the same for the three setups with four balls.", "quantifier": "every source of randomness drawing from the right laws, every size from 2 on, every key", "why_tests_cant": "Expectations over all samples of bounds with unbounded critics; the workflow has no tests.", "anchors": ["workflows/projects/Mixtures/how_good_integration_is.smk", "src/bmi/estimators/neural/_backend_linear_memory.py", "src/bmi/samplers/_tfp/_core.py:monte_carlo_mi_estimate"]}
{"id": "C72", "title": "Figures of pointwise mutual information profiles", "statement": "The workflow of the distinct profiles makes a figure in which the first panel shows points of two normal variables with correlation 0.805, the second the same points carried over to two bimodal marginals, the third points of a mixture in the shape of the letter U (which has positive mutual information, at most log 2); the profiles of the first and the third consist of the logarithms of the density ratio at 100000 independent points, and their means are unbiased estimates of the mutual information; carrying the points over with exact inverse distribution functions keeps the mutual information and the profile. The figure is refused with ValueError exactly if the means of the two profiles differ by more than 0.01. The workflow of the images makes six images of the pointwise mutual information on a grid (rows are values of y, columns values of x), for normal pairs with correlation 0.5 and 0.9, Student pairs with 3 and 5 degrees of freedom, the first pair shifted by 3, and four balls at the corners of a square (zero everywhere), with 10000 points drawn from the same law; other names raise KeyError.", "quantifier": "every source of randomness drawing from the right laws, every key, every file name", "why_tests_cant": "The workflows have no tests; what is shown is a function of a random key and a law.", "anchors": ["workflows/projects/Mixtures/distinct_profiles.smk", "workflows/projects/Mixtures/pmi_plot_1v1.smk", "src/bmi/samplers/_tfp/_core.py:JointDistribution"]}
{"id": "C73", "title": "Profiles of the five distributions of the gallery", "statement": "The workflow of the profiles wants one figure for each of the five names Normal-2-3, Student-2-3, Transformed-Normal-2-3, Transformed-Student2-3 and Mixture, and any other name raises KeyError. Each histogram shows the logarithm of the density ratio at 10000 independent points of the law named: a normal law and a Student law with 5 degrees of freedom, with variance (dispersion) 2 everywhere and covariance 1 between the first variables, the normal law with both variables and the Student law with the first variable passed through the sigmoid function, and a mixture of three balls on the diagonal. The figures of a law and of its image under the sigmoid show exactly the same numbers. The mean in the title is unbiased for the mutual information: 1/2 log(4/3) for the normal law, that plus a constant of the degrees of freedom and dimensions for the Student law, and a positive number at most the entropy of the weights 0.1, 0.4, 0.5 for the mixture. The numbers of the normal law are distributed as 1/2 log(4/3) plus a quarter of the difference of two independent squares of standard normal numbers.", "quantifier": "every source of randomness drawing from the right laws, every key, every file name", "why_tests_cant": "The workflow has no tests; invariance under a bijector has to hold for every key and every point.", "anchors": ["workflows/projects/Mixtures/pmi_profiles.smk", "src/bmi/samplers/_tfp/_core.py:transform", "src/bmi/samplers/_tfp/_core.py:pmi_profile", "src/bmi/samplers/_matrix_utils.py:SparseLVMParametrization"]}
{"id": "C74", "title": "Benchmark of the mixture model estimator", "statement": "The 16 tasks of the benchmark have different identifiers, and each has a name of its own in the table. results.csv has exactly one row for each estimator, task and seed, about the posterior which that estimator gives on the sample of that task with that seed, next to the mutual information the task advertises. In each row the numbers that are not finite are left out and counted; the mean is that of the rest, at most a tenth of them lies below the interval and at most a tenth above it (800 of 1000 are inside), and if none is left all three figures are -1. The table has one row for each task, in their order, with its name, its mutual information, and in the column of run s+1 the mean and the interval of the run with seed s. A task without a name raises KeyError. The three seeds have the columns Run 1, Run 2, Run 3.", "quantifier": "every list of tasks and seeds with usable identifiers, every posterior including NaN and infinite numbers, every sampler and estimator", "why_tests_cant": "Posteriors with infinite numbers and rows overwritten by others show up only in the whole workflow, which has no tests.", "anchors": ["workflows/projects/Mixtures/gmm_benchmark.smk", "src/bmi/benchmark/task.py"]}
{"id": "C75", "title": "A continuous variable and a bit", "statement": "The example with a pair of numbers and a bit is the mixture, with weights 1/4, 1/2, 1/4, of a Student law around (-1,-1) with 8 degrees of freedom and a bit which is one with probability 0.95, a normal law around the origin with correlation 0.95 and a fair bit, and a Student law around (1,1) with 5 degrees of freedom and a bit which is one with probability 0.05. The bit is fair. The pointwise mutual information is between log 0.1 and log 1.9 at every point, so that every number of the histogram is on its axis from -3 to 1, and its mean is the mutual information, which is positive and at most (0.05 log 0.1 + 0.95 log 1.9)/2. The estimate in the file is unbiased, its variance is at most (log 19 / 2)^2 / 10^6, and the square of the standard error next to it has that variance times 1 - 10^-6 as its mean. The figure shows 1000 independent points, orange where the bit is one and blue where it is zero.", "quantifier": "every source of randomness drawing from the right laws, every key, every point and both values of the bit", "why_tests_cant": "Densities with respect to a product of Lebesgue and counting measure; the workflow has no tests.", "anchors": ["workflows/projects/Mixtures/figure_discrete_continuous.smk", "src/bmi/samplers/_tfp/_product.py:ProductDistribution", "src/bmi/samplers/_tfp/_core.py:mixture", "src/bmi/samplers/_tfp/_core.py:monte_carlo_mi_estimate"]}
{"id": "C76", "title": "Example distributions and figures of fitted mixtures", "statement": "Each of the four example distributions (X, Galaxy, AI, Waves) stands for its law, and its sampler draws, from the same key, the same points with the first variable passed through an injective map, so that sampler and distribution have the same mutual information, which is positive; for X, Galaxy and Waves it is on the axis of the figure (below 1, 1 and 1.5). The file plots/NAME-N-K.pdf shows N independent points of the sampler; N independent points of the mixture of normal laws given by the first of the 800 samples of the posterior; for every sample of the posterior the profile of its mixture at 100000 points and the mean of this profile, which is an unbiased estimate of the mutual information of that mixture; their mean; and the profile of the true distribution with its mean, an unbiased estimate of the true mutual information. The posterior is that of the data shown, with K components and a symmetric Dirichlet prior of total mass one. The rules all and plots_all ask for two and sixteen such figures, and no file is written by two rules. Another name raises KeyError.", "quantifier": "every source of randomness drawing from the right laws, every sampler of the posterior which stays in the support of the prior, every N and K above zero", "why_tests_cant": "The workflow has no tests; that the true profile, which ignores the transformations of the sampler, is that of the points shown needs invariance of the information.", "anchors": ["workflows/projects/Mixtures/example_distributions.py", "workflows/projects/Mixtures/fitting_gmm.smk"]}
{"id": "C77", "title": "Best critics of the objectives", "statement": "Let t be the pointwise mutual information of two variables, integrable under their joint law and under the product of the marginals. The expectation of NWJ over batches of n >= 2 points is the mutual information exactly if the critic is 1 + t (almost everywhere). The Donsker-Varadhan bound E f - log E exp f is the mutual information exactly if the critic is t plus a constant; but on batches of n >= 2 points, with such a critic, the expectation of the objective is larger than the mutual information unless the variables are independent, and for every critic it is at least the bound. The expectation of InfoNCE over batches of n >= 2 points is largest for t, and for another critic equally large exactly if it is t plus a function of x; for every critic and every n it is smaller than the mutual information unless the variables are independent. If critic and t are continuous and no open set has probability zero, the three statements about critics hold at every point.", "quantifier": "every pair of variables with an integrable pointwise mutual information, every critic integrable as stated, every size of the batches", "why_tests_cant": "The optimum is over all functions and all laws, and the values are expectations.", "anchors": ["src/bmi/estimators/neural/_backend_linear_memory.py", "src/bmi/estimators/neural/_estimators.py"]}
{"id": "C78", "title": "The notebook on critics shows each trained critic beside the pointwise mutual information, so that equal panels mean an optimal critic up to its freedom", "statement": "Running workflows/projects/Mixtures/visualizing_critics.py ends without an exception: the printed ground truth is an unbiased estimate of the mutual information of the four balls, dist_four_balls.pdf shows their density (first variable to the right, second upwards, every grid point inside the pixel that shows it), the three critics are trained on batches of 512 pairs out of half of 5000 unstandardised points, and critics_four_balls.pdf shows on the grid f_NWJ - 1 over PMI, f_DV and PMI both minus their grid means, f_NCE and PMI both minus their means over y, and on 25000 new points the corresponding profiles. The panels of a column agree exactly if f_NWJ = 1 + PMI, f_DV = PMI + c, f_NCE = PMI + c(x) on the grid; continuous critics attaining the optimum of the population objective make all panels and histograms agree.", "quantifier": "for all keys and random number generators, all critics, all objectives, all points of the histograms, all batch sizes for the optimum", "why_tests_cant": "the figures are made from random points and trained networks; a transposed grid, a mean over the wrong axis or a shift by the wrong constant gives a plausible picture and no test compares it with the freedom of each objective", "anchors": ["workflows/projects/Mixtures/visualizing_critics.py:66", "workflows/projects/Mixtures/visualizing_critics.py:107", "workflows/projects/Mixtures/visualizing_critics.py:140", "workflows/projects/Mixtures/visualizing_critics.py:153", "workflows/projects/Mixtures/visualizing_critics.py:220"]}
{"id": "C79", "title": "Figure comparing the mixture model with other estimators", "statement": "figure_bmm_vs_other.pdf has one panel for each of four tasks, which are among the tasks of both benchmarks whose results it reads. A dotted line marks the mutual information that the task advertises; there is one bar for each run of the mixture model, which reaches from the lower to the upper end of its interval, with a dot at its mean; and one dot for each run of KSG-10 and of InfoNCE on 5000 points. Each estimator has a strip of a third of the height to itself, marked with its name in the middle; dots of one estimator have increasing heights and stay at least 0.12 inside of the strip. If a task has no results in the first file the rule fails. The mutual information of the normal task is inside of the axis of its panel. (False for posteriors so skewed that their mean is outside of the interval: matplotlib refuses negative lengths, and there is no figure at all.)", "quantifier": "every content of the two files, in particular the results of every run of the two benchmarks; every number of runs", "why_tests_cant": "The figure needs the results of two benchmarks; a mixed up column or a wrong filter gives a plausible picture, and a skewed posterior is rare.", "anchors": ["workflows/projects/Mixtures/figure_bmm_vs_other.smk", "workflows/projects/Mixtures/gmm_benchmark.smk", "workflows/benchmark/v2/config.py"]}
{"id": "C80", "title": "The script validating the profile of normal distributions", "statement": "plot_samples(rho, additional_y) of validate_chi2_combination.py never fails for correlations inside (-1, 1): its two formulas for the mutual information agree. The first histogram shows 20000 independent draws of the pointwise mutual information, the second 20000 independent draws of MI + sum rho/2 (U^2 - V^2); both have the same law, and the draws of one are independent of those of the other. The dashed line is at the mutual information, which is the mean of this law, the strip is one standard deviation to both sides, the number in the title is its variance, the sum of rho^2, and the empirical variance next to it has 19999/20000 of this as its mean. The two lower panels have the same law, and their second histograms the very same numbers. With a correlation outside of (-1, 1) the assertion fails.", "quantifier": "all lists of correlations, all numbers of additional variables, all keys and random number generators drawing from the right laws", "why_tests_cant": "the script compares two histograms of random numbers by eye; equality of laws, independence and means are not visible in one run", "anchors": ["scripts/Mixtures/validate_chi2_combination.py", "src/bmi/samplers/_tfp/_core.py:pmi_profile", "src/bmi/samplers/_matrix_utils.py:canonical_correlation"]}
{"id": "C81", "title": "The illustration of appearing and vanishing mutual information", "statement": "Each of the five panels of appearing_and_vanishing_mi.pdf shows the density of a uniform law on open squares at the points of a grid over [0, 2]^2, first variable to the right and second upwards, without clipping of the colours, and its title is the mutual information of that law: 0 for each of two squares on the diagonal, log 2 for their mixture, log 2 for the mixture of the other two squares, and 0 for the mixture of these two mixtures. Each pixel which is not at the border has the density at its centre; the pixels of the border are blank.", "quantifier": "all grid points and pixels; the mutual information of the continuous laws", "why_tests_cant": "the titles are claims about mutual information of continuous laws, which no program computes here", "anchors": ["scripts/Mixtures/plot_appearing_and_vanishing_mi.py"]}
{"id": "C82", "title": "Figures of mutual information against a parameter", "statement": "plot_mi draws one curve for each estimator of the table, in increasing order of their names and with their own colour and label; its points are the distinct values of the parameter among the rows of this estimator, in increasing order, each at the mean of its non-missing estimates, with a band of one sample standard deviation to both sides, and the dotted line is at the mean of the true values of all rows with this value of the parameter; an estimator without colour or label raises KeyError; each configured estimator has a colour and a label, which no other one has. In the figure of spirals every speed is one of the seven configured ones and the dotted line is at -log(1 - 0.8^2)/2, the mutual information of each of the seven tasks; the result files of estimates at least 3 are not shown. In the figure of long tails the left panel has the exponents of the 10 normal tasks at the mutual information 2 log(5/3), the right one the degrees of freedom of the 10 Student tasks at this number plus the correction, each of which is the mutual information of the data of the task. The three clouds of plot_spiral.py have the same 2000 points in the same order, each cloud in its own colour and each point turned by speed times its squared norm, all within the axes.", "quantifier": "all tables, all configurations with distinct task names and usable estimators and samplers, all random number generators", "why_tests_cant": "the code is a plotting script run once by hand; the true value in the plots is a statement about laws, and the grouping by columns is only tested on the one set of results", "anchors": ["workflows/projects/Beyond_Normal/_common_figure_utils.py:plot_mi", "workflows/projects/Beyond_Normal/figure_spiral.smk", "workflows/projects/Beyond_Normal/figure_tails.smk", "workflows/projects/Beyond_Normal/scripts/plot_spiral.py"]}
{"id": "C83", "title": "How seldom Monte Carlo estimates of mutual information are negative", "statement": "The Monte Carlo estimate of mutual information from n points, which need not be positive, is below -c with probability at most exp(-n c), whatever the distribution. If the mean of some function with values between -1 and 1 differs by d between the distribution and the product of its marginals, the estimate is not a positive number with probability at most exp(-n d^2 / 8); for every distribution of dependent variables this probability decreases geometrically in n. For the four example distributions of the figures (X, Galaxy, AI, Waves) all reported numbers are positive but for random keys of probability at most 4 exp(-n / 1250): 4 exp(-160) for 200000 points.", "quantifier": "all distributions whose log-density, marginals and samples fit together, all numbers of points, all keys; the four example distributions", "why_tests_cant": "events of probability exp(-160) are never seen by tests, and bounds on probabilities are not observable in a run", "anchors": ["src/bmi/samplers/_tfp/_core.py:monte_carlo_mi_estimate", "src/bmi/samplers/_tfp/_wrapper.py:BMMSampler.mutual_information", "workflows/projects/Mixtures/example_distributions.py"]}
{"id": "C84", "title": "The workflow showing the example distributions", "statement": "The workflow cool_tasks.smk can be loaded exactly when none of the four Monte Carlo estimates of mutual information is negative; otherwise every job raises ValidationError. All four are positive but for random keys of probability at most 4 exp(-160), and each has the true mutual information as its expectation. The first figure then shows 1000 points of the X distribution and 2000 points each of the AI, Waves and Galaxy distributions, drawn from these laws. The tasks X, AI, Fence and Balls sample the standardised draws. The second figure shows, for each of the five estimators with its name, marker and colour, ten points over each task, at the heights of its estimates from 5000 points, and dotted lines at the numbers which the tasks report.", "quantifier": "all ideal generators of random numbers and keys, all behaviours of the estimators short of killing the interpreter, all noise added to positions", "why_tests_cant": "the loading fails only with tiny probability, and the figures are images that tests do not look at", "anchors": ["workflows/projects/Mixtures/cool_tasks.smk", "workflows/projects/Mixtures/_benchmark_rules.smk", "workflows/projects/Mixtures/example_distributions.py"]}
{"id": "C85", "title": "The correction of mutual information for Student-t laws", "statement": "SplitStudentT.mi_correction_function(df, m, n) is the mutual information between parts of dimensions m and n of a Student-t vector with identity dispersion. It is positive, symmetric in m and n, strictly decreasing in df, strictly increasing in m and in n, at least mn/(2(df+m+n)^2) and at most mn(1/(2df^2)+2/(3df^3)). Hence for every dispersion the number reported by the Student-t sampler decreases strictly in df and always exceeds that of the Gaussian sampler. The figure correction.py shows finite numbers, one decreasing curve in its own colour and with its own label for each of six pairs (m, n), and curves of larger dimensions lie above.", "quantifier": "all positive degrees of freedom (real), all positive dimensions, all dispersions", "why_tests_cant": "monotonicity for all real df and all dimensions is a statement about gamma and digamma functions that cannot be settled by evaluating them", "anchors": ["src/bmi/samplers/_split_student_t.py", "scripts/Beyond_Normal/figures/student/correction.py"]}
{"id": "C86", "title": "Figures of the concept: distorted normal pairs keep their information", "statement": "scripts/.../concept/1v1.py and 2v1.py draw, in each of three panels, a sample (seed 42) of a distorted normal pair: with X and Y replaced by strictly monotone functions of them (1v1), or with X turned about the origin by an angle proportional to the square of its length (2v1). All three pairs have the same mutual information, -log(1-0.95^2)/2 in 1v1, printed as 1.16, and log(30000/4079)/2 in 2v1, printed as 1.00. Estimates in the titles are the average and the standard deviation over 20 samples of 1000 points (1v1) or 10 samples of 5000 points (2v1) of exactly the law which is drawn.", "quantifier": "all ideal generators of random numbers, all estimators that succeed on arrays of the used shapes", "why_tests_cant": "equality of mutual information across non-linear distortions is a statement about measures; running the script shows only noisy estimates", "anchors": ["scripts/Beyond_Normal/figures/concept/1v1.py", "scripts/Beyond_Normal/figures/concept/2v1.py"]}
{"id": "C87", "title": "The experiment with KSG and spirals", "statement": "scripts/.../ksg_spiral.py prints the true mutual information -log(1-rho^2)/2, the KSG estimate without distortion and a table of estimates for the same sample with X turned with speeds 0, 0.02, 0.1, 0.5, 1 and 10; the distorted pairs all have the printed mutual information, and the line for speed 0 repeats the estimate without distortion. A base sampler exists exactly for positive dimensions and |rho| < 1; otherwise an exception is raised (rho = -1 passes the assertion and is refused as a covariance). With dim_x = 1 the script raises ValueError.", "quantifier": "all dimensions, correlations, numbers of points and seeds, all ideal generators, all estimators that succeed", "why_tests_cant": "all parameters and the laws of the distorted pairs; the boundary rho = -1 is not tested", "anchors": ["scripts/Beyond_Normal/experimental/ksg_spiral.py"]}
{"id": "C88", "title": "Figure with growing mutual information: wanted values are attained and shown where they belong", "statement": "figure_high_mi.smk finds, for each of the three families (sparse normal, spiral, half-cube) and each wanted value 0, 0.5, 1, 1.5, 2, 3, 4, 5, a task whose advertised number is the mutual information of its law and is off the wanted value by less than 0.0001; no search fails, and the 24 identifiers differ. The samples are standardised draws from these laws. The figure has one panel per family, each showing exactly the estimates for its own tasks against the wanted values, averaged over the seeds, with bands, and a dotted curve over all eight wanted values which is off the diagonal by less than 0.0001.", "quantifier": "all ideal generators of random numbers, all draws made by the fall-back of the search, all estimators that do not kill the interpreter", "why_tests_cant": "success of 24 numerical searches and correctness of laws, plus the join of a table of results with identifiers and families", "anchors": ["workflows/projects/Beyond_Normal/figure_high_mi.smk", "workflows/projects/Beyond_Normal/_high_mi_utils.py", "workflows/projects/Beyond_Normal/_common_figure_utils.py"]}
{"id": "C89", "title": "Figure of pointwise mutual information and trained critics: both rows show functions of the coordinates on the axes", "statement": "figure_visualise_pointwise_mi.smk ends without an exception and makes six columns, titled 'Student, $\\\\nu=d$' for d = 1, 2, 3, 5, 10 and 'Normal'. In each column the points are the first 1000 of 10000 independent draws from the law named in the title with dispersion 1/2 between the coordinates. The upper image shows at each of the 71 x 71 pixels of the square from -5 to 5 the pointwise mutual information of this law. The lower image shows the critic trained on the 10000 points, so that for a critic which has learned the pointwise mutual information (up to a function of x, which InfoNCE leaves open) the two images agree up to a number for each pixel column. (The last sentence fails: the critic is trained on standardised points and evaluated at raw ones.)", "quantifier": "all libraries of random numbers, all critics, all objectives, all critic factories that succeed, almost all samples", "why_tests_cant": "whether a picture shows the right function at the right place needs the law of the samples, continuity of densities and the scale on which the critic was trained", "anchors": ["workflows/projects/Beyond_Normal/figure_visualise_pointwise_mi.smk", "src/bmi/estimators/neural/_estimators.py:19-28"]}
{"id": "C90", "title": "BENCHMARK_TASKS: every task samples from the law it describes and advertises the mutual information of this law", "statement": "Importing bmi.benchmark does not fail, and BENCHMARK_TASKS has forty tasks under pairwise different identifiers and with pairwise different names, with the advertised dimensions. Each of them samples independent draws from the law its description gives (base law and tower of transforms), and task.mutual_information is the mutual information of that law, e.g. log(8 pi) - 3 for the 1 x 1 Student-t with one degree of freedom and log(25/9) for all sixteen tasks built on a two-pair normal. The same holds for every further tower of transforms (asinh, half-cube, normal CDF, wiggly, power, rotate, spiral, Swiss roll) over the base tasks, with parameters in range. (False for one task, 1v1-bimodal-0.75, which advertises strictly more.)", "quantifier": "all towers of transforms over all base tasks with parameters in range, all ideal random generators, all seeds and numbers of points", "why_tests_cant": "the mutual information of a law and the law of a sample are not observable; a test sees finitely many pseudorandom points and cannot range over towers", "anchors": ["src/bmi/benchmark/task_list.py", "src/bmi/benchmark/__init__.py", "src/bmi/benchmark/task.py", "src/bmi/benchmark/tasks/asinh.py", "src/bmi/benchmark/tasks/spiral.py"]}
{"id": "C91", "title": "Benchmark workflows of the paper: all tasks asked for exist, and each cell of each figure is the statistic of the right runs", "statement": "Each of the six workflows (benchmark, gaussianise, uniformise, qualifiers, ksg, neural_arch) finds all tasks it asks for, whatever the order in which a set of identifiers is iterated; after preprocessing they have different identifiers, keep names (with a heading), dimensions and mutual information, and a sample is the preprocessed sample of the original task for the same seed. An identifier stands for the same estimator everywhere. Whatever the runs give, the figures can be made: one row per task in order; a cell of the figure of estimates is the average over the runs with 10000 samples that have not failed, and the last column is the mutual information of that task; a cell of the figure of sample sizes names the smallest number of samples from which on the estimates are within a factor 3/2 (geometric mean), or '>10k'; a cell of the figure of failures counts the failed runs; different estimators are shown under different names. The 17 figures showing tasks exist with the right title and columns. (False in two points: the key R-KSG-I-10 stands for 5 neighbours in some workflows and 10 in others, under the same shown name; and the figure of estimates of neural_arch raises ValueError if all runs on a task are negative.)", "quantifier": "all results of runs (numbers or NaN, per estimator, task, size and seed), all orders of the sets of identifiers, all ideal random generators", "why_tests_cant": "running the workflows takes weeks of computation with three languages; a test cannot range over all results of runs nor over the iteration order of sets", "anchors": ["workflows/projects/Beyond_Normal/benchmark.smk", "workflows/projects/Beyond_Normal/benchmark_gaussianise.smk", "workflows/projects/Beyond_Normal/benchmark_uniformise.smk", "workflows/projects/Beyond_Normal/benchmark_qualifiers.smk", "workflows/projects/Beyond_Normal/benchmark_ksg.smk", "workflows/projects/Beyond_Normal/benchmark_neural_arch.smk", "workflows/projects/Beyond_Normal/figure_visualise_tasks.smk", "workflows/projects/Beyond_Normal/_common_figure_utils.py"]}
{"id": "C92", "title": "Figure of transformed samplers: one cloud of points shown in five ways, with the same shades", "statement": "The script makes five panels from 5000 points drawn with one seed. The i-th point of each panel is the image of the i-th point of the first: itself; both coordinates after the normal distribution function; after the half-cube map; at the same levels of the two laws with two bumps (up to 1e-12, inside -10..10); the first coordinate after the distribution function rolled up on the Swiss roll. The points of the first panel are independent draws of the normal law with correlation 3/4. A point has the same shade in all panels, linear in its height in the first panel between the lowest and the highest point; in every panel a higher point has at least the shade of a lower one. Except in the panel with two bumps, different points are at different places.", "quantifier": "all ideal random generators and all keys made from the seed; all clouds of points for what can be read off", "why_tests_cant": "the statement is about the law of the points and couples five samplers through the random generator; a test sees one seed", "anchors": ["scripts/Beyond_Normal/figures/visualise_distributions.py", "src/bmi/benchmark/task_list.py", "src/bmi/benchmark/tasks/embeddings.py"]}
{"id": "C93", "title": "Figure between dense and sparse interactions: the tasks found, the two panels, and the heatmaps", "statement": "The 19 tasks of the figure can be made: ten pairs of variables and a common part alpha from 0 to 18865/16384 in ten steps, and one to nine pairs without common part. All have a mutual information within 0.0001 of one, different identifiers, and samples which are standardised draws from the normal law with the described correlations. If all estimators end, the workflow ends with one line for each of 9 estimators, 19 tasks and 5 seeds, each from 10000 points. The left panel shows, against alpha, the averages and bands of the estimates below 3 for ten pairs; the right panel, against the number of pairs, those for alpha = 0, including the task with ten pairs, which is in both. Both horizontal axes go from right to left, and the dotted curves are within 0.0001 of one. The six heatmaps show the correlations of tasks with a mutual information of almost one, with the titles alpha = 1.2, 0.9, 0.5 and K = 10, 5, 1; no correlation is outside the range of the shades.", "quantifier": "all ideal random generators, all generators used by the search, all estimators that end, all printings of numbers with five digits", "why_tests_cant": "the tasks are found by a search over laws, and the figure averages over runs of arbitrary estimators; a test would see one finished figure", "anchors": ["workflows/projects/Beyond_Normal/figure_sparsity.smk", "workflows/projects/Beyond_Normal/_sparsity_utils.py", "workflows/projects/Beyond_Normal/_common_figure_utils.py", "workflows/projects/Beyond_Normal/_core_rules.smk"]}
{"id": "C94", "title": "What the neural estimators can report: ceiling, constants, units, backend", "statement": "InfoNCEEstimator, NWJEstimator and DonskerVaradhanEstimator can be constructed exactly with a positive batch size, number of steps and learning rate and one of the training backends quadratic and linear (ValueError otherwise). A number they report is the objective of some critic on the test part. InfoNCEEstimator never reports more than the logarithm of the number of test points. If one of the variables is constant in the data, none of them, nor MINEEstimator, reports a positive number. With standardize=True, shifting each column and multiplying it by a positive factor changes nothing: the result, the history of the training and the trained critic are the same (also for MINEEstimator). The training backend changes neither result nor trained critic.", "quantifier": "all critics and optimisers, all ideal random generators, all data of equal lengths with at least one point, all valid parameters; columns not so narrow that StandardScaler takes them for constants", "why_tests_cant": "a test trains one network on one data set; that no training whatsoever can pass the ceiling, find information in a constant or notice the units needs a proof over all critics", "anchors": ["src/bmi/estimators/neural/_estimators.py", "src/bmi/estimators/neural/_mine_estimator.py", "src/bmi/estimators/neural/_backend_linear_memory.py", "src/bmi/estimators/neural/_backend_quadratic_memory.py", "src/bmi/utils.py"]}
{"id": "C95", "title": "Small noise breaks ties without creating information", "statement": "add_noise refuses negative keys and negative standard deviations with ValueError. Otherwise the result has the shape of the points; its entries are independent over the states of the generator, normal with the given number as mean and the given standard deviation; with standard deviation zero it is the given array. With a positive standard deviation almost surely no two entries are equal. The noisy variables have at most the mutual information of the given ones.", "quantifier": "all arrays, keys and standard deviations, all laws of the two variables, all generators of independent normal numbers", "why_tests_cant": "a test sees one noisy sample; neither the absence of ties nor the absence of new information can be read off it", "anchors": ["src/bmi/utils.py", "tests/samplers/test_discrete_continuous.py"]}
{"id": "C96", "title": "A function wrapped as an estimator", "statement": "run_estimator with FunctionalEstimator(func) on a readable sample reports the number func returns, the measured time and no more than the given information; an exception, or a value that is not a number, is reported as a failure with its message. FunctionalEstimator(e.estimate) gives for every estimator e that works on arrays the result of e, except that on success the time is the measured one and the estimator's own information is lost. parameters() returns the given parameters, or empty ones.", "quantifier": "all functions and estimators, all samples", "why_tests_cant": "tests wrap one or two functions", "anchors": ["src/bmi/estimators/function_wrapper.py", "src/bmi/interface.py", "src/bmi/benchmark/result.py"]}
{"id": "C97", "title": "Noise on one variable makes the KSG estimates finite", "statement": "After add_noise with a positive standard deviation on X, or on Y, both KSG estimators give, for almost every state of the generator, one finite nonnegative prediction for every neighbourhood, and the two estimators agree. Without noise the prediction can be infinite, for example for two equal points.", "quantifier": "all arrays, all lists of different neighbourhoods below the number of points, all chunk sizes, metrics and standard deviations; the other variable may be anything, even a function of the noise", "why_tests_cant": "a test sees a few noisy samples; that no tie survives is a statement about all states of the generator", "anchors": ["src/bmi/utils.py", "src/bmi/estimators/ksg.py"]}
{"id": "C98", "title": "CCA finds the mutual information of normal variables in the long run", "statement": "With a growing number of points the estimates of CCAMutualInformationEstimator from SplitMultinormal.sample converge in probability to SplitMultinormal.mutual_information(). For any law with second moments and an invertible covariance they converge to the mutual information of the normal law with the same covariance; for SplitStudentT with more than two degrees of freedom this is strictly less than SplitStudentT.mutual_information().", "quantifier": "all dimensions, means, covariance and dispersion matrices, degrees of freedom above two, values of scale; all laws with second moments", "why_tests_cant": "a test compares one estimate with one number within a tolerance; convergence is about all numbers of points and all keys", "anchors": ["src/bmi/estimators/correlation.py", "src/bmi/samplers/_splitmultinormal.py", "src/bmi/samplers/_split_student_t.py"]}
{"id": "C99", "title": "Monte Carlo estimates converge and their standard errors mean what they say", "statement": "With a growing number of points the estimates of monte_carlo_mi_estimate converge in probability to the mutual information, or exceed every bound if it is infinite. If the pointwise mutual information has a finite positive variance, the probability that the truth is within z returned standard errors of the returned estimate tends to the probability that a standard normal number is between -z and z; if the variance is zero every estimate is exact. For mixtures of normal distributions the variance is finite, and it is zero only for independent variables, for which every estimate is zero with standard error zero.", "quantifier": "all consistent joint distributions, all z, all mixtures of multivariate normal distributions", "why_tests_cant": "a test compares a few estimates with a number; limits, coverage probabilities and infinite values are about all numbers of points and all keys", "anchors": ["src/bmi/samplers/_tfp/_core.py"]}
{"id": "C100", "title": "What the histogram estimator finds in the long run", "statement": "Consider a growing number of points and fixed numbers of cells. If every column fills a bounded interval, and no point between two cells has positive probability, the histogram estimates converge in probability, and the limit is the mutual information of the cells of X and Y in those intervals, which is at most the mutual information of X and Y; on every task with additive uniform noise it is strictly smaller than the number the sampler reports. If all columns of X (or of Y) are normal and their number of cells is odd, as with the default of five, they converge to zero whatever the mutual information: the range of the cells grows with the number of points, and nearly all points end up in the middle cell.", "quantifier": "all samplers of independent points, all numbers of cells, all bounded laws without atoms between cells, all normal columns, all noise levels", "why_tests_cant": "a test compares estimates for one number of points with a number; a limit is about all numbers of points and all keys, and the error does not vanish with more data", "anchors": ["src/bmi/estimators/_histogram.py", "src/bmi/samplers/_additive_uniform.py", "src/bmi/samplers/_splitmultinormal.py"]}
{"id": "C101", "title": "The objectives of the neural estimators settle as the batch grows", "statement": "For a fixed critic f and batches of n independent pairs, the NWJ, Donsker-Varadhan and InfoNCE objectives of both backends converge as n grows: the mean distance from the limit tends to zero, hence so does the difference between expected value and limit, and the probability of a value far from the limit; the same holds for points drawn from a sampler with a random key. The limits are E f - E exp(f - 1) over independent pairs for NWJ, E f - log E exp f for Donsker-Varadhan, and E f minus the mean over x of log E exp f(x, Y) for InfoNCE. None exceeds the mutual information. Where the pointwise mutual information exists, the limit is the mutual information exactly for the critics 1 + pmi (NWJ), pmi plus a constant (Donsker-Varadhan), and pmi plus a function of x (InfoNCE): the bias of InfoNCE and of Donsker-Varadhan on finite batches vanishes for large batches.", "quantifier": "all laws of the pairs, all measurable critics f for which f is integrable over pairs and f and exp f over independent pairs, both backends, all samplers of independent points", "why_tests_cant": "a test evaluates an objective on one batch; the limit is about all batch sizes and all random draws, and the terms in the objectives are not independent of each other, so that no simple average can be compared", "anchors": ["src/bmi/estimators/neural/_backend_linear_memory.py", "src/bmi/estimators/neural/_backend_quadratic_memory.py"]}
{"id": "C102", "title": "The error of the histogram estimator on many points vanishes as the cells get narrow", "statement": "On bounded variables, whose columns fill intervals without atoms at the edges of cells, the histogram estimates converge (as the number of points grows) to a number which depends on the numbers of cells. It never exceeds the mutual information, and for every number c below the mutual information there is m such that with at least m cells per column of X and of Y the limit exceeds c. Hence, if the mutual information is finite, with many enough cells and then many enough points the estimate is as close to the mutual information as one likes, with probability as close to one as one likes; if it is infinite the estimates exceed every bound. In particular on the tasks with uniform variables and additive uniform noise the limits approach the number the sampler reports, from below.", "quantifier": "all numbers of columns, all laws whose columns fill intervals, with and without standardisation, all samplers of independent points with such a law; all widths of the noise for the additive tasks", "why_tests_cant": "a statement about two limits, the number of points and the number of cells, for all laws: a test sees one sample and one number of cells, and there the two errors (few points per cell, wide cells) cannot be told apart", "anchors": ["src/bmi/estimators/_histogram.py", "src/bmi/samplers/_additive_uniform.py"]}
{"id": "C103", "title": "Which mutual information the MLP critics can find", "statement": "For pairs whose values lie in a bounded box, any number c below the mutual information and any number of hidden layers from one upwards, there are sizes of the hidden layers and weights such that the MLP critic f accepts all points, and the NWJ, Donsker-Varadhan and InfoNCE objectives of both backends evaluated with f tend, on growing batches, to numbers which exceed c and do not exceed the mutual information: the family of critics is rich enough, and one network serves all three objectives. On the tasks with uniform variables and additive uniform noise c can be any number below the one the sampler reports. Without hidden layers the opposite is true: whatever the weights and the law, the limits are never positive.", "quantifier": "all dimensions of X and Y, all laws with values in a box, all c below the mutual information (which may be infinite), all numbers of hidden layers, all weights for the claim about networks without hidden layers", "why_tests_cant": "a test trains one network on one task; that some network comes close for every law, or that none without hidden layers does, quantifies over laws, sizes and weights", "anchors": ["src/bmi/estimators/neural/_critics.py", "src/bmi/estimators/neural/_backend_linear_memory.py", "src/bmi/estimators/neural/_backend_quadratic_memory.py"]}
{"id": "C104", "title": "Which of the programs in scripts/ can be started", "statement": "Of the ten programs in scripts/, exactly the four that do not import bmi.api (plot_appearing_and_vanishing_mi, validate_chi2_combination, visualise_distributions, correction) get past their imports, given the third-party packages; the other six (concept/1v1, concept/2v1, ksg_spiral, ksg_time_comparison, run_external_estimator_test, visualise_one_dimensional) raise ImportError before main, whatever main would do. With a module bmi.api five of the six would run main, and visualise_one_dimensional would still fail. In ksg_time_comparison main would then print an estimate for a sample of independent standard normal vectors next to the mutual information 0; dim_y = 0 stands for dim_x, numbers below one are AssertionError and a negative dim_y is ValueError.", "quantifier": "all third-party packages, all bodies of main, all arguments, estimators and ideal generators", "why_tests_cant": "no test starts the programs; that nothing the user installs or passes repairs an import, and that the others never fail there, is a statement about all environments", "anchors": ["scripts/Beyond_Normal/figures/concept/1v1.py", "scripts/Beyond_Normal/experimental/ksg_time_comparison.py", "scripts/Beyond_Normal/benchmark/visualise_one_dimensional.py", "src/bmi/__init__.py"]}
{"id": "C105", "title": "Kernel density estimator with many points and fixed bandwidths: limits, and that they are too small for normal variables", "statement": "With kernels that are nowhere zero (gaussian, exponential) and bandwidths given as numbers, KDEMutualInformationEstimator converges in probability, on samples of every law with second moments, to the number obtained in the same way from the smoothed densities of the law: without standardisation those of the law itself, with standardisation those of the law with all components in units of their standard deviations. With Gaussian kernels of one bandwidth the limit is 0 for independent variables. On every SplitMultinormal task the limit is explicit, decreases when the bandwidth grows, is at least 0 and at most the mutual information the task reports, and strictly between the two as soon as some X component is correlated with some Y component; it comes as close to the mutual information as one likes for small bandwidths.", "quantifier": "all laws with second moments, all dimensions, positive bandwidths and covariances; all keys of an ideal generator", "why_tests_cant": "a statement about limits of arbitrarily large samples and all covariance matrices; a test at one sample size cannot separate the bias from the noise", "anchors": ["src/bmi/estimators/_kde.py", "src/bmi/samplers/_splitmultinormal.py"]}
{"id": "C106", "title": "Kernel density estimator with the bandwidths of Scott or Silverman: consistent", "statement": "With bandwidths by Scott's or Silverman's rule (the default is Scott's), any of the six kernels for X, Y and the pair, with or without standardisation, KDEMutualInformationEstimator converges in probability, on samples of every law with finite mutual information such that X and Y have densities f with E max(0, log f) finite (say, bounded ones) and the logarithms of the components have means (if it standardises, second moments), to the mutual information of the law. In particular it converges to the number the sampler reports on samples of every SplitMultinormal (with the default arguments and all others of this kind), of every SplitStudentT (standardising only if there are more than two degrees of freedom; without it even for the Cauchy law), and with its default arguments on AdditiveUniformSampler.", "quantifier": "all laws of finite mutual information with densities, also unbounded ones, and logarithmic moments, all dimensions, kernels and both rules; all keys of an ideal generator", "why_tests_cant": "a statement about limits of arbitrarily large samples for all laws; at no sample size is the error known without a proof", "anchors": ["src/bmi/estimators/_kde.py", "src/bmi/samplers/_additive_uniform.py", "src/bmi/samplers/_splitmultinormal.py", "src/bmi/samplers/_split_student_t.py"]}
{"id": "C107", "title": "Kernel density estimator on the tasks of the benchmark: consistent", "statement": "On every task which the constructors of bmi.benchmark.tasks build from the base tasks (normal with dense or sparse interactions, Student-t, additive noise) by the transforms asinh, half-cube, powers, normal CDF, wiggly, rotation and spiral, in any order and any number of them, KDEMutualInformationEstimator with bandwidths by Scott's or Silverman's rule converges in probability to the advertised mutual information: with any kernels, without standardisation always, with standardisation if the variables have second moments (degrees of freedom divided by the exponents of the powers above two, or any asinh or normal CDF on top). The normal CDF is only covered over variables with second moments. In particular the estimator with default arguments converges to the advertised number on 33 of the 40 tasks of BENCHMARK_TASKS; the others are the bimodal task, the Swiss roll and the five tasks of Student-t variables with one or two degrees of freedom, which are covered without standardisation.", "quantifier": "all towers of transforms over all base tasks with valid parameters, all dimensions, kernels and both rules; all keys of ideal generators", "why_tests_cant": "a statement about limits of arbitrarily large samples; the tests use one seed and tolerances, and at no sample size is the error known without a proof", "anchors": ["src/bmi/estimators/_kde.py", "src/bmi/benchmark/task_list.py", "src/bmi/benchmark/tasks/multinormal.py", "src/bmi/benchmark/tasks/student.py", "src/bmi/benchmark/tasks/spiral.py", "src/bmi/transforms/simple.py", "src/bmi/transforms/_rotate.py"]}
{"id": "C108", "title": "Kernel density estimator on mixtures and on the mixture tasks: consistent", "statement": "For every mixture (bmm.mixture) of components made by MultivariateNormalDistribution and MultivariateStudentDistribution, in any dimensions, with any means, any positive definite dispersions, any degrees of freedom and any proportions, KDEMutualInformationEstimator with bandwidths by Scott's or Silverman's rule on samples of the BMMSampler around it converges in probability to the mutual information of the mixture - the number which BMMSampler.mutual_information() estimates without bias: without standardisation always (also with Cauchy components), with standardisation if all degrees of freedom are above two. The same holds for the six tasks of bmi.benchmark.tasks.mixtures (X, AI, Galaxy, Waves, concentric normal, sparse with inliers) with any parameters which they accept, in particular for the estimator with default arguments; for Galaxy and Waves, where X is bent after sampling, the limit is the mutual information before bending.", "quantifier": "all numbers of components, proportions, dimensions, means, dispersions, degrees of freedom, kernels, both rules, all parameters of the tasks; all keys of ideal generators", "why_tests_cant": "a statement about limits of arbitrarily large samples; no closed form exists, so no test knows what number the estimates should approach", "anchors": ["src/bmi/estimators/_kde.py", "src/bmi/benchmark/tasks/mixtures.py", "src/bmi/samplers/_tfp/_core.py", "src/bmi/samplers/_tfp/_wrapper.py", "src/bmi/samplers/_tfp/_normal.py", "src/bmi/samplers/_tfp/_student.py"]}
{"id": "C109", "title": "CCA on variables with normal marginals and on mixtures: what it finds in the limit", "statement": "If the marginals of X and of Y are (multivariate) normal but the pair need not be, then the estimates of CCAMutualInformationEstimator converge in probability to a number which is at most the mutual information, and equal to it only if the pair is jointly normal. On samples of the BMMSampler around any mixture of components made by MultivariateNormalDistribution and MultivariateStudentDistribution with more than two degrees of freedom the limit is the mutual information of normal variables with the covariance of the mixture, i.e. the weighted covariances of the components plus the covariance of their means. On the tasks of bmi.benchmark.tasks.mixtures: on X and on concentric normal distributions the limit is 0, although the mutual information is positive (unless the correlation is 0, or there is one distribution only); on AI it is -log(1 - 18/7909)/2; on sparse with inliers it is -k/2 log(1 - ((1-eps) lambda^2/(1+lambda^2))^2), which is less than the mutual information unless eps is 0 or 1 or nothing interacts.", "quantifier": "all laws with normal marginals and an invertible covariance; all mixtures, proportions, dimensions, means, dispersions; all parameters of the four tasks; all keys of ideal generators", "why_tests_cant": "a statement about limits of arbitrarily large samples, and a bound over all joint laws with given marginals", "anchors": ["src/bmi/estimators/correlation.py", "src/bmi/benchmark/tasks/mixtures.py", "src/bmi/samplers/_tfp/_core.py", "src/bmi/samplers/_tfp/_wrapper.py", "src/bmi/samplers/_tfp/_normal.py", "src/bmi/samplers/_tfp/_student.py"]}
{"id": "C110", "title": "CCA on the transformed tasks of the benchmark: at most the mutual information in the limit; but it is no lower bound", "statement": "The estimates of CCAMutualInformationEstimator on a benchmark task converge in probability to a number between 0 and the mutual information the task reports, on the following tasks: towers (of any height, in any order) of the transforms of single coordinates (asinh, half-cube, normal CDF, wiggly, powers with positive exponents) over a bivariate normal task or a sparse multinormal task; the same with spirals and rotations among the transforms, over a sparse multinormal task with at least two (with rotations three) pairs; towers of asinh, half-cube and powers over uncorrelated Student-t variables as long as there are second moments, where the limit is 0 and the mutual information positive; correlated Student-t variables with more than two degrees of freedom; dense multinormal tasks; additive noise, where the limit is log(1 + 1/(4 eps^2))/2, always less than the mutual information; the Swiss roll over the normal CDF of a bivariate normal task. This covers 34 of the 40 tasks in BENCHMARK_TASKS. But CCA is no lower bound in general: on a bivariate normal sampler with correlation r (not 0), with a TransformedSampler mapping x to (x, x^2) and y to (y, y^2), the reported mutual information stays -log(1 - r^2)/2 and is correct, while the estimates converge to -log(1 - r^2)/2 - log(1 - r^4)/2, which is more.", "quantifier": "all towers of transforms and all parameters in the range where the law exists; all correlations in (-1, 1); all keys of ideal generators; every routine finding canonical variates", "why_tests_cant": "a statement about limits of arbitrarily large samples, over infinitely many tasks; the bound rests on a maximal correlation over all functions of two normal variables", "anchors": ["src/bmi/estimators/correlation.py", "src/bmi/benchmark/task_list.py", "src/bmi/benchmark/tasks", "src/bmi/samplers/_transformed.py", "src/bmi/samplers/_additive_uniform.py"]}
{"id": "C111", "title": "CCA on normal variables mapped to the unit interval: it finds the rank correlation, which is less than there is", "statement": "On transform_normal_cdf_task of a bivariate normal task with correlation r in (-1, 1), the estimates of CCAMutualInformationEstimator converge in probability to -log(1 - q^2)/2 with q = (6/pi) arcsin(r/2), while the task reports -log(1 - r^2)/2; on transform_normal_cdf_task of a sparse multinormal task with k pairs of correlation r they converge to -k log(1 - q^2)/2, while the task reports -k log(1 - r^2)/2. If r is not 0 and there is at least one pair, the limit is strictly less than the reported (and true) mutual information: no amount of data closes the gap.", "quantifier": "all correlations, dimensions, numbers of pairs and strengths; all keys of ideal generators; every routine finding canonical variates", "why_tests_cant": "the exact limit for arbitrarily large samples over a continuum of parameters; at r = 0.75 the gap is about 0.026 nats, within the tolerances used in tests", "anchors": ["src/bmi/estimators/correlation.py", "src/bmi/benchmark/tasks/normal_cdf.py", "src/bmi/transforms/simple.py", "src/bmi/samplers/_transformed.py", "src/bmi/samplers/_splitmultinormal.py"]}
{"id": "C112", "title": "CCA on transformed normal variables: strictly less than the mutual information in the limit", "statement": "Take a bivariate normal task with correlation r in (-1, 1) other than 0, or a sparse multinormal task with at least one pair and strength other than 0, and apply one of transform_asinh_task, transform_half_cube_task, transform_normal_cdf_task, transform_wiggly_task or transform_power_task with a positive exponent other than 1. The estimates of CCAMutualInformationEstimator converge in probability to a number which is strictly less than the mutual information the task reports (and has): no amount of data closes the gap. The same holds for transform_normal_cdf_task after any number of these transforms, and for transform_swissroll_task of transform_normal_cdf_task of a bivariate normal task. Ten tasks of the benchmark are of this kind. Otherwise two transforms can cancel: after transform_half_cube_task and transform_power_task with exponent 2/3 the estimates converge to the mutual information.", "quantifier": "all correlations, dimensions, numbers of pairs, strengths and exponents; all keys of ideal generators; every routine finding canonical variates", "why_tests_cant": "a strict inequality between limits for arbitrarily large samples over a continuum of parameters; near r = 0 or exponent 1 the gap is smaller than any tolerance used in tests", "anchors": ["src/bmi/estimators/correlation.py", "src/bmi/benchmark/tasks/asinh.py", "src/bmi/benchmark/tasks/half_cube.py", "src/bmi/benchmark/tasks/normal_cdf.py", "src/bmi/benchmark/tasks/wiggly.py", "src/bmi/benchmark/tasks/power.py", "src/bmi/benchmark/tasks/embeddings.py", "src/bmi/benchmark/task_list.py"]}
