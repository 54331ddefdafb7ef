# Formal model of cbg-ethz/bmi in Lean 4

## Layout

* `properties.jsonl` – the properties (C01, C02, ...), in terms of the public API.
* `lean/Verif/Spec/*`  – small specifications, independent of the model (mutual information as a
  Kullback–Leibler divergence, ideal random sources, plug-in information of a table, "partition of a range", ...).
* `lean/Verif/Model/*` – the model: one Lean definition per Python function, each citing file and lines.
* `lean/Verif/Lemmas/*` – helper lemmas.
* `lean/Verif/Props/*` – the property theorems with their non-vacuity examples.
* `lean/Verif/Audit.lean` – prints the axioms of every theorem named in the manifest at build time.
* `MANIFEST.json` – property → theorem names and status.
* `seeded/LOG.jsonl` – mutation tests of the theorems.

## Modelling conventions

* Python exceptions are values: a function that can raise returns `Except Err α`, with `Err` naming
  the exception class.
* Python/NumPy/JAX floating point numbers are modelled by the real numbers `ℝ`; rounding, overflow and
  dtype conversions are **not** modelled.  Exceptions, where the property is about them: special values (NaN, ±inf) use an
  explicit type (`Option`-like NaN, `EReal`); C19 (CDF inversion) and C20 (binary search) are also proved for any
  arithmetic with stated rounding laws; C55 has an overflowing gamma function.
* Arrays are lists or functions `Fin n → ·`; a matrix is a Mathlib `Matrix`.
* Loops that write to arrays are folds over index lists with functional update.
* Objects with mutable state are structures; a method returns the new state; properties about objects quantify over
  sequences of calls.
* Third-party calls (JAX PRNG, scikit-learn, SciPy, pandas, TFP, subprocess, NumPyro) are *parameters* of the model or are
  modelled from their documentation.  Whatever is assumed about them is a hypothesis of the theorem or a field of a
  structure, and is listed in the section "Trusted base".
* The law sampled by a sampler is a `MeasureTheory.Measure`; the PRNG being faithful to it is an
  assumption.  True mutual information is `klDiv P (P.fst.prod P.snd)` from Mathlib.
* A claim that is false for the code is kept as `partial`: the negation is proved with a witness, and what is true is
  proved under a name ending in `_partial` (or under the weaker statement named in the manifest).

## Trusted base

* Lean's kernel (4.33.0), Mathlib's definitions (`Real.log`, `Matrix.det`, `klDiv`, `gaussianReal`, ...).
* Axioms: only `propext`, `Classical.choice`, `Quot.sound`.  `Verif/Audit.lean` prints the axioms of each theorem in the manifest.
* The reading of /repo recorded in the citation of each definition; no code is executed.

### Assumptions about third-party code

Each is a hypothesis (H) of the theorems that need it, with a proof that it can be satisfied, or a definition in the model
(D) that describes the library.

| what | where | kind |
|---|---|---|
| `jax.random.uniform/randint/multivariate_normal/...` draw independent entries with the named law; `split` gives independent keys | `Spec/IdealRandom.lean`, witness in `Lemmas/IdealWitness.lean` | H |
| `scipy.stats.multivariate_t.rvs` draws Student-t vectors; it squeezes an array with one row | `Model/Student.lean`, `Lemmas/StudentWitness.lean` | H, D |
| TensorFlow Probability: `Mixture`, `Blockwise`, `TransformedDistribution`, `MultivariateNormalLinearOperator`, `MultivariateStudentTLinearOperator`; `jnp.linalg.cholesky` | `Model/Bmm.lean`, `Spec/Bmm.lean` (`IdealTfp`), witness `Lemmas/BmmWitness.lean` | H, D |
| TensorFlow Probability: `Bernoulli` (a uniform number compared with the probability; `log_prob` affine in the event) | `Model/Discrete.lean`, `Spec/Discrete.lean` (`IdealUniform`), witness `Lemmas/DiscreteWitness.lean` | H, D |
| `jax.random.split` never repeats a key; `jax.random.choice` without replacement | `Props/Gmm.lean` (`IdealSplit`, `IdealChoice`) | H |
| NumPyro's NUTS: a parameter; its output is only required to lie in the support of the prior | `Model/Gmm.lean` | H |
| train/test splitting and permutations of scikit-learn and JAX (`IdealRng`) | `Model/NeuralData.lean` | H |
| optax optimiser: an arbitrary function; JAX gradients: Fréchet derivatives | `Model/Mine.lean`, `Model/NeuralEstimator.lean` | H, D |
| `eqx.nn.Linear`: affine maps with a shape check | `Model/Critic.lean` | D |
| scikit-learn `StandardScaler`, `scale`, `quantile_transform` (epsilon, subsampling limit and draw, `norm.ppf` as parameters) | `Model/ProductSpace.lean`, `Model/Scaling.lean` | D |
| scikit-learn `KernelDensity` (normalising constants as parameters), `CCA` (a parameter), `np.histogramdd` | `Model/Kde.lean`, `Model/Cca.lean`, `Model/Histogram.lean` | D |
| `scipy.special.digamma`, `gamma`, `erf`, `scipy.linalg.expm`: the mathematical functions | several | D |
| pandas (tables, CSV): layout modelled, formatting and parsing of numbers a parameter | `Model/SampleIO.lean`, `Model/Tables.lean` | D |
| argparse of R and Julia, `rmi` and the Julia estimators, `subprocess` | `Model/External.lean` (`World`) | D, H |
| `axes_grid1.Divider` with fixed sizes | `Model/Subplots.lean` | D |
| `time.perf_counter`: a monotone clock (only for non-negativity) | `Model/Timer.lean` | H |
| Snakemake: an output pattern is a regular expression with greedy `.+` wildcards; `expand` is the product of its lists; each job runs once with a fresh configuration | `Model/Workflow.lean` | D |
| pydantic: field constraints checked at construction; coercions left out | several | D |

Simplifications besides these: a `BMMSampler` used as the base of a transformed sampler reports its estimate as a real number (an infinite
estimate, of probability zero, is 0); the self-distance in Euclidean KSG is exactly zero.

## Which code is modelled

"yes" means: every function with behaviour of its own.

| file under /repo | modelled in `Verif/Model` |
|---|---|
| src/bmi/interface.py, utils.py | Task, Samplers, RunEstimator; ProductSpace, SampleIO, Chunker, KSG |
| src/bmi/transforms/* | Transforms, Search – yes |
| src/bmi/samplers/_splitmultinormal, _additive_uniform, _discrete_continuous, _independent_coordinates, _transformed, base | Samplers – yes |
| src/bmi/samplers/_split_student_t | Student – yes |
| src/bmi/samplers/_matrix_utils | MatrixUtils – yes, except `eta_x=None` |
| src/bmi/samplers/_tfp/* | Bmm – yes |
| src/bmi/benchmark/task.py, result.py, utils/* | Task, RunEstimator, Timer, Dumper – yes |
| src/bmi/benchmark/task_list.py, tasks/* | TaskIds (ids and registry), Transforms, Student, MixtureTasks, Scaling, Search |
| src/bmi/estimators/ksg, _histogram, _kde, correlation | KSG, Histogram, Kde, Cca – yes |
| src/bmi/estimators/neural/* | Losses, Training, NeuralData, Critic, Mine, NeuralEstimator – yes, except progress bars and logging text |
| src/bmi/estimators/external/*, external/rmi.R, external/mi_estimator.jl | External, Gmm – yes |
| src/bmi/plot_utils/subplots_from_axsize.py | Subplots – yes |
| workflows/benchmark/_utils.py | Tables – yes, except colours and LaTeX output |
| workflows/benchmark/_common_benchmark_rules.smk, v1/, v2/ and demo/config.py | Workflow, Configs – the rules that sample, estimate and gather; the tables are in Tables |
| workflows/projects/Beyond_Normal/_common_figure_utils.py | FigureTables (tables behind the heat maps), Scaling (scale_tasks) |
| workflows/benchmark/_utils.py, workflows/projects/Mixtures/v2_results_table.smk | ReadResults – reading of results, parameters of tasks, the table of the paper (without the printing of numbers) |
| workflows/projects/Beyond_Normal/_sparsity_utils.py, figure_sparsity.smk (tasks and covariances) | Sparsity |
| workflows/projects/Mixtures/outliers.smk (distributions, tasks, panels, reference lines) | Outliers – without the rescaled copies, the rules for the signal alone, and drawing |
| workflows/projects/Mixtures/how_good_integration_is.smk (setups, samples, estimates, ground truth) | Integration – critics take real values at single points; without the plots |
| workflows/projects/Mixtures/distinct_profiles.smk, pmi_plot_1v1.smk | Profiles – the way of passing the arguments of `sample` is a parameter; a key is an array of words; without colours and axes |
| workflows/projects/Mixtures/pmi_profiles.smk | Gallery – without bins and axes |
| workflows/projects/Mixtures/gmm_benchmark.smk | GmmBenchmark – the posterior is a parameter; without the samples of the chain |
| workflows/projects/Mixtures/figure_discrete_continuous.smk | Discrete – without bins and axes other than the range of the histogram |
| workflows/projects/Mixtures/example_distributions.py, fitting_gmm.smk | Fitting – NUTS is a parameter; without bins, colours and axes other than the range of the posterior |
| workflows/projects/Mixtures/visualizing_critics.py | CriticPlots – sampler, grids, images, training, histograms as the arrays handed to matplotlib; the KSG estimate (displayed only), colours, bins and the alternative samplers that are commented out are not modelled |
| workflows/projects/Mixtures/figure_bmm_vs_other.smk | CompareFigure – the files are the rows of the two benchmarks; without colours, sizes, titles and ticks of the horizontal axes |
| scripts/Mixtures/validate_chi2_combination.py | Model/ChiCheck – histograms as the numbers handed to `hist`; labels, colours and rounding left out |
| scripts/Mixtures/plot_appearing_and_vanishing_mi.py | Model/Appearing – arrays, extent, range of colours and titles |
| workflows/projects/Beyond_Normal/_common_figure_utils.py:plot_mi, figure_spiral.smk, figure_tails.smk, scripts/plot_spiral.py | Model/MiFigure – curves, bands and points as the numbers handed to matplotlib; ticks, legends and fonts left out |
| workflows/projects/Mixtures/cool_tasks.smk | Model/CoolTasks – both figures; sizes and transparency left out; `np.random.normal` is a parameter |
| scripts/Beyond_Normal/figures/student/correction.py | Model/CorrectionFigure – the curves; sizes and spines left out |
| scripts/Beyond_Normal/figures/concept/1v1.py, 2v1.py | Model/Concept – data, titles and labels of all panels; the estimator is a parameter; limits, ticks and sizes left out |
| scripts/Beyond_Normal/experimental/ksg_spiral.py | Model/Concept – the printed lines; the estimator is a parameter |
| workflows/projects/Beyond_Normal/figure_high_mi.smk, _high_mi_utils.py (identifiers, names, parameters) | Model/HighMi – the whole workflow; arithmetic is exact, limits and ticks left out |
| workflows/projects/Beyond_Normal/figure_visualise_pointwise_mi.smk | Model/PmiFigure – both logarithms of density ratios, `get_data`, the files and the columns of the plot with titles, points and images; sizes, colours and colour limits left out; `scipy.stats` densities are parameters (Spec/PmiFigure `IdealPdf`) |
| src/bmi/benchmark/task_list.py, __init__.py, task.py (sampling and metadata), tasks/*.py as constructors | Model/Registry – evaluation of the calls of Model/TaskIds to samplers with either kind of random generator, names, `BENCHMARK_TASKS`; `task_params` left out; mixtures, the general latent variable model, rescaling and quantile transforms are a parameter here (they have their own models) |
| workflows/projects/Beyond_Normal/benchmark{,_gaussianise,_uniformise,_qualifiers,_ksg,_neural_arch}.smk, figure_visualise_tasks.smk, ESTIMATORS and ESTIMATOR_NAMES of _common_figure_utils.py | Model/PaperBenchmark – configurations, selection and preprocessing of tasks, results.csv, the three figures (with Model/FigureTables) and the frames behind the figures of the tasks; what a run gives is a parameter; drawing, colours, sizes and memory limits left out |
| scripts/Beyond_Normal/figures/visualise_distributions.py | Model/SamplerFigure – the five panels: titles, labels, coordinates of the points, place of each point in the colour map; sizes, transparency, spines, panes and ticks left out |
| workflows/projects/Beyond_Normal/figure_sparsity.smk (rules) | Model/SparsityFigure – `TASKS`, rule `figure_estimates` (filters, panels, reversed axes), rule `figure_matrices` (tasks, titles, matrices, lines, ticks); sizes, legends and colours of the heatmap left out.  NumPy numbers in `task_params` are assumed to be written as plain numbers (true before NumPy 2) |
| src/bmi/estimators/neural/_estimators.py (constructors of the three classes) | Model/NeuralNamed – objectives for training and test, backends; an objective is a float: NaN when `log(0)` is subtracted from `log(0)` (fewer than two pairs for NWJ and Donsker-Varadhan) |
| src/bmi/utils.py (add_noise) | Model/AddNoise – seeds, shapes, errors; NumPy's generator is a state for each seed and a sequence of numbers for each state, an array is filled row by row |
| src/bmi/estimators/function_wrapper.py, src/bmi/interface.py (default estimate_with_info) | Model/FunctionWrapper – including pydantic's refusal of estimates that are not numbers |
| src/bmi/estimators/correlation.py in the long run | Spec/Consistency – convergence in probability; scikit-learn's fit is assumed to return canonical variables when the sample covariance is invertible (`Consistency.CanonicalFit`, which `Consistency.exists_canonicalFit` shows can be met) |
| src/bmi/samplers/_tfp/_core.py (`monte_carlo_mi_estimate`) in the long run | strong law, central limit theorem and Slutsky's theorem of Mathlib; keys for different numbers of points need not be related, since only the law for each number of points is used |
| src/bmi/estimators/_histogram.py in the long run | exact real arithmetic and ideal randomness; only fixed numbers of cells; unbounded laws other than normal columns are not covered |
| src/bmi/estimators/neural/_backend_*.py on growing batches | exact real arithmetic; a fixed critic: the training of the critic is not covered by C101 |
| src/bmi/estimators/_histogram.py with narrow cells (C102) | the limit in the number of points is taken first; no rate is claimed, and nothing about cells which get narrow together with the number of points |
| src/bmi/estimators/neural/_critics.py, richness of the critics (C103) | weights are real numbers and the sizes of the hidden layers are not bounded in advance; that training finds such weights is not claimed |
| scripts/ – the imports of all ten programs, experimental/ksg_time_comparison.py (C104) | Model/Scripts – the tree of modules of src/bmi, import statements, `get_args`, `get_estimator` and `main` of ksg_time_comparison; estimators are parameters, measured times and printed settings left out; a module of bmi that exists is taken to run without exceptions; the bodies of run_external_estimator_test.py and visualise_one_dimensional.py, which never run, are not modelled |
| src/bmi/estimators/_kde.py on growing samples (C105) | no new model: Model/Kde with Model/Samplers; real arithmetic, the float epsilon of `StandardScaler` is zero in the statements with standardisation (with a positive one every column of more than 1/eps rows counts as constant); kernels with bounded support and the rules of Scott and Silverman are not treated |
| src/bmi/estimators/_kde.py with the rules for bandwidths on growing samples (C106) | no new model: Model/Kde with Model/Samplers; real arithmetic, the float epsilon of `StandardScaler` is zero in the statements with standardisation; the normalising constants of scikit-learn are taken to be the integrals of the kernels (`Spec.mass`) |
| src/bmi/estimators/_kde.py on the tasks of src/bmi/benchmark/tasks and task_list.py (C107) | no new model: Model/Kde with Model/Registry; simplifications as for C90 and C106; Swiss roll, bimodal, latent-variable and mixture tasks are left out |
| src/bmi/estimators/_kde.py on src/bmi/benchmark/tasks/mixtures.py and src/bmi/samplers/_tfp (C108) | no new model: Model/Kde with Model/Bmm and Model/MixtureTasks; simplifications as for C63 and C106 |
| CCA on src/bmi/benchmark/tasks/mixtures.py and src/bmi/samplers/_tfp (C109) | no new model: Model/Cca with Model/Bmm and Model/MixtureTasks; Galaxy and Waves left out; assumption on scikit-learn as for C98 |
| CCA on src/bmi/benchmark/task_list.py and src/bmi/samplers/_transformed.py (C110) | no new model: Model/Cca with Model/Registry and Model/Samplers; the bimodal task and Student-t tasks without second moments left out; assumption on scikit-learn as for C98 |
| CCA on src/bmi/benchmark/tasks/normal_cdf.py (C111) | no new model: Model/Cca with Model/Registry and Model/Samplers; assumption on scikit-learn as for C98 |
| CCA on src/bmi/benchmark/tasks/{asinh,half_cube,normal_cdf,wiggly,power}.py over normal pairs (C112) | no new model: Model/Cca with Model/Registry and Model/Transforms; assumption on scikit-learn as for C98 |
| not modelled: package `__init__` files, figures (matplotlib calls), the remaining Snakemake rules and scripts, conftest.py and tests | – |

## Disagreements between the code and its documentation or the properties

Proved as negations (the property is `partial`) or as separate theorems, unless marked *(observed)*.

* C03: `_can_be_covariance` accepts asymmetric matrices; the symmetry check never fires.
* C06: the ground truth of the zero-inflated Poissonization is too large for every 0 < p < 1.
* C09: the power transform is accepted with exponent 0; the Swiss roll is not injective on the real line.
* C12, C55: Student-t with df = inf, or df ≥ 344, reports NaN.  C56: one point raises `AssertionError`.
* C14: `parametrised_correlation_matrix` accepts values that give no covariance matrix.  *(observed)* `eta_x=None` is allowed by the
  annotation but fails.
* C17: the dimensions of the zero-inflated sampler raise `AttributeError` (no `super().__init__`).
* C19, C54: the numerical inverse CDF takes finitely many values; the reported mutual information of the bimodal task is strictly too
  large for every correlation other than 0 (`bimodalTask_overstates`).
* C20: `binsearch` may return a value without any successful call if the target is near -1e9.
* C24: repeated neighbourhoods make the two KSG classes disagree.  C26: ties make predictions infinite.
* C33: a first test value NaN sticks.  C36: MINE's first correction is 1/(1-α), contrary to a comment.
* C37: `train_test_split=None` trains and tests on the same data.  C62: base class parameters accept
  `test_every_n_steps=0` and fractions outside (0, 1), and fail later.
* C39: `run_estimator` aliases and updates `additional_information`.
* C44: task ids collide for some arguments.  C45: an `Enum` holding a `Path` cannot be dumped.
* C47: BNSL's documented `proc=0` is refused, values other than 1, 2, 10 never work; warnings on stderr make the call fail; R prints about
  seven digits; columns are taken by position.
* C48: GMM's `alpha` is never used; 0 counts as unset; indices out of range are clamped; a failed run keeps the old posterior.
* C49: one axes is returned bare even with `squeeze=False`.
* C50: the filter on the number of samples is overwritten; an estimator called "True MI" breaks the table; no run "converges" if the
  largest estimate is ≤ 0.
* C51: two points give an infinite CCA estimate.  C52: KDE accepts bandwidths that no fit accepts; an empty kernel name means the joint kernel.
* C53: only the total of the two input dimensions is checked.
* C60: the Monte Carlo mutual information of a `BMMSampler` can be negative, and then `task.id` raises; `analytic_mi` is never used.
* C63: Waves encodes at most log 4, whatever `n_components`.
* C64: uniformising with one quantile erases everything, gaussianising merges values within 1e-7 of the extremes, large samples collapse
  outside the drawn range; ids do not contain `n_quantiles` or the seed.
* C66: the workflow fails for negative seeds; a slash in a task id is taken for a part of the estimator; of tasks with one id only the last is run.
* C67: negative and NaN estimates do not count against an estimator in the figure of the number of samples; tasks without information are never solved; the figure of the estimates fails if all runs of a task failed.
* C68: the table of the paper averages over all numbers of samples, since line 42 of v2_results_table.smk starts from the unfiltered results again; the exponent of transform_power replaces the parameter alpha of a latent variable model in the results.
* C72: distinct_profiles.smk and pmi_plot_1v1.smk call `sample(key, n)` although the signature is `sample(n_points, key)`; a key of two words in `if n_points < 1` raises ValueError, so neither workflow makes any figure. With the arguments in order the figures are as described, except that the numerical inverse distribution functions of the second panel take finitely many values, so the points shown have strictly less mutual information than the profile says.
* C79: the 80 % interval of a skewed posterior need not contain its mean (ten zeros and one 11: interval [0, 0], mean 1); then the length of a part of the error bar is negative, `ax.errorbar` raises ValueError and figure_bmm_vs_other.pdf is not made.
* C81: the grid of plot_appearing_and_vanishing_mi.py includes the ends 0 and 2, where the strict inequalities of the masks fail, so that the outermost pixels of each image are blank although the density at their centres is not zero.
* C82: `read_results(..., max_mi_estimate=3)` drops the rows with estimates of at least 3 and the failed ones before anything is drawn, so that a value of the parameter at which no estimator stays below 3 has no dotted line either, and the dotted line elsewhere depends on which runs succeeded only through its end points. In _common_figure_utils.py:26 the estimator called R-KSG-I-10 has 5 neighbours, and the comment on the memory limit in _core_rules.smk:59-60 says 4 GiB where the number is 8 GiB; neither is used in the statement.
- C55, more: for `df + dim_x + dim_y >= 344` with `df + dim_x, df + dim_y <= 343` only the gamma function of both parts together overflows, and the reported mutual information is `inf` (`intermediate_df_is_infinite`; e.g. `df = 342` in two dimensions).
- C89: `figure_visualise_pointwise_mi.smk` trains its critic with `InfoNCEEstimator()`, which standardises the points, and evaluates it at raw coordinates. A critic which has learned the pointwise mutual information therefore shows it at other points: the panels agree only if the sample has unit deviations and (normal) the first mean is half the second, or (Student-t) both means are zero. Almost surely they do not (`PmiFigure.normal_disagree`, `student_disagree`). For ν = 1 the sample deviation grows with the sample, so the lower panel is far off.
- C90: of the forty tasks of `BENCHMARK_TASKS`, `1v1-bimodal-0.75` is the only one advertising a number which is not the mutual information of the law it samples from (`Registry.bimodal_overstates`; the cause is `invert_cdf`, see C19, C54).
- C91: the key `R-KSG-I-10` stands for `RKSGEstimator(variant=1, neighbors=5)` in `_common_figure_utils.py` and for `neighbors=10` in `benchmark_qualifiers.smk` and `benchmark_ksg.smk`; the first two show it under the same name "KSG I (R)" (`Paper.key_ambiguous`).
- C91: `benchmark_neural_arch.smk` has only estimators with trained critics; if all runs on a task give negative numbers, all of them are filtered out as failures and the figure of the estimates raises ValueError (`Paper.arch_workflow_fails`; exact condition in `Paper.arch_workflow_partial`).
- C95: `add_noise` has the same default key for every call, so two arrays of the same shape get the same noise (`AddNoise.shared_noise`). Two discrete variables, even independent ones or constants, then have infinite mutual information (`AddNoise.shared_noise_infinite`, `AddNoise.shared_noise_constants`). tests/samplers/test_discrete_continuous.py calls it in this way. With independent states no information is created (`AddNoise.fresh_noise_partial`).
* C86, C87, C104: six of the ten programs in scripts/ do `import bmi.api as bmi`, but there is no such module; they raise ModuleNotFoundError before doing anything (`Scripts.api_scripts_fail`). So 1v1.py and 2v1.py make no figure and ksg_spiral.py prints nothing; what their `main` would do is proved in the theorems with suffix `_partial`. visualise_one_dimensional.py also imports `bmi.benchmark.tasks.one_dimensional`, which does not exist either, and run_external_estimator_test.py uses names which `bmi.benchmark` does not have.
* *(observed)* docs/bmm.md names a function that does not exist; the documented default 0.3012 was not verified numerically.

## Per property

| id | property | status | theorems | proved in | remarks |
|---|---|---|---|---|---|
| C01 | Multinormal ground truth is the true mutual information | proved | 4 | Props/Multinormal | Correct means: sample() draws independent pairs with the stated law (given ideal jax.random) and the reported number is the KL divergence of that law from the product of its marginals. |
| C02 | Multinormal ground truth obeys the laws of mutual information | proved | 7 | Props/Multinormal |  |
| C03 | Covariance arguments are validated | partial | 3 | Props/Covariance | Full characterisation for symmetric arrays. The property is false for asymmetric ones, because the symmetry check never fires; proved with the witness [[1, 1/2], [0, 1]]. |
| C04 | Additive-uniform ground truth is the true mutual information | proved | 2 | Props/AdditiveUniform | Both branches of the formula, with jax.random idealised (IdealRandom). |
| C05 | Discrete-uniform mixture ground truth is the true mutual information | proved | 4 | Props/DiscreteMixture | With jax.random idealised (IdealRandom). |
| C06 | Zero-inflated Poissonization ground truth | partial | 5 | Props/ZeroInflated | the property holds for p = 0 only; for every 0 < p < 1 the reported value is proved to be strictly larger than the mutual information, at every truncation |
| C07 | Transforming X and Y by injective maps keeps the ground truth | proved | 3 | Props/Compose |  |
| C08 | Concatenating independent samplers adds up mutual information | proved | 2 | Props/Compose |  |
| C09 | Benchmark transforms are injective | proved | 22 | Props/Transforms | Injectivity of every transform, and for each task that applies one: over a correct base sampler the transformed sampler is correct and reports the base's number. The power transform is accepted with exponent 0, for which it is not injective; the Swiss roll is injective on [-1/2, oo) but not on the real line. Floats are real numbers; erf and expm are the mathematical functions. |
| C10 | Spiral diffeomorphism preserves norms and is invertible | proved | 8 | Props/Spiral | All dimensions, generators, speeds and points; spiral_turns gives the closed form for canonical generators. |
| C11 | Student-t ground truth | proved | 4 | Props/Student | Law, mutual information (equal to the reported number and positive), decomposition, covariance(). The law of the samples is proved for n != 1; see C56 for n = 1. |
| C12 | Student-t with infinite degrees of freedom is a Gaussian | partial | 2 | Props/Student | False as documented: with df = inf the reported number is NaN. Proved instead: the number tends to the Gaussian mutual information as df grows. |
| C13 | canonical_correlation builds a valid covariance with the advertised information | proved | 4 | Props/MatrixUtils | Entries, positive-definiteness criterion and the number reported by the multinormal sampler, which by C01 is the mutual information. Negative additional_y is rejected. |
| C14 | parametrised_correlation_matrix has the documented block structure | proved | 3 | Props/MatrixUtils | Also proved: accepted correlations need not give a covariance matrix (correlation_x < -1/(dim_x-1)). |
| C15 | GaussianLVMParametrization covariance is the covariance of its latent-variable model | proved | 5 | Props/LVM | Real arithmetic. dim_x + dim_y = 0 (where mixing raises) is excluded from the comparison with mixing. |
| C16 | Dense and sparse LVM parametrisations report the right correlation | proved | 3 | Props/LVM |  |
| C17 | Reported dimensions are those of the samples | partial | 9 | Props/BmmSampler, Props/SamplerShapes, Props/Student | False for ZeroInflatedPoissonizationSampler, whose dimensions raise AttributeError (proved), and for SplitStudentT with n = 1, which raises AssertionError (see C56). Proved for the other sampler classes, including BMMSampler around any consistent joint distribution. |
| C18 | Integer seeds and keys are interchangeable and sampling is deterministic | proved | 3 | Props/BmmSampler, Props/SamplerShapes | For all sampler classes except SplitStudentT, which hands the seed to SciPy. For BMMSampler also the seed of the Monte Carlo estimate. |
| C19 | Numerical CDF inversion is accurate and terminates | proved | 12 | Props/Bimodal, Props/InvertCdf | Accuracy, saturation and monotonicity in exact arithmetic; termination and the bracket invariant for any arithmetic satisfying the stated rounding laws. invertMono_finite: the numerical inverse takes finitely many values, so it is not injective. |
| C20 | Binary search over parameters only returns values meeting the target | proved | 13 | Props/Search, Props/SearchTasks | Soundness, the call bound and the errors hold for any arithmetic, floats included. The target must not lie within delta of the initial value -1e9: binsearch_unsound shows that otherwise a value is returned although every call raised. The tasks are in exact arithmetic. |
| C21 | Mixtures of joint distributions have the mixed marginals | proved | 4 | Props/Bmm | Proportions are non-negative and sum up to one, as documented; TensorFlow Probability would normalise others (not modelled). The semantics of TensorFlow Probability (Mixture, Blockwise, TransformedDistribution, linear-operator distributions) and of jnp.linalg.cholesky is assumed (Model/Bmm, IdealTfp). Real arithmetic. |
| C22 | Pointwise mutual information is invariant under transforms | proved | 7 | Props/Bmm, Props/BmmTransform | PMI is invariant wherever the bijectors undo themselves; if they are diffeomorphisms on the support, the transformed object stands for the transformed law. The semantics of TensorFlow Probability (Mixture, Blockwise, TransformedDistribution, linear-operator distributions) and of jnp.linalg.cholesky is assumed (Model/Bmm, IdealTfp). Real arithmetic. |
| C23 | BMM sampler estimates its mutual information once and then sticks to it | proved | 3 | Props/BmmSampler | For every finite sequence of calls of sample and mutual_information. |
| C24 | Fast and reference KSG estimators agree for every chunk size | partial | 2 | Props/KSG | Equal for lists of distinct neighbourhoods. With a repeated neighbourhood the two classes disagree; the disagreement is proved. |
| C25 | KSG estimate does not depend on order, roles or isometric coordinates | proved | 5 | Props/KSG | Real arithmetic. |
| C26 | KSG predictions are finite, non-negative and bounded | partial | 4 | Props/KSG | Non-negative, and bounded without ties. Finiteness is false: the prediction for k is +inf exactly if some sample occurs more than k times. |
| C27 | KSG parameter validation and fit/predict protocol | proved | 6 | Props/KSG | Whether get_predictions returns a copy is visible in the model as value semantics. |
| C28 | Histogram estimator is the plug-in mutual information | proved | 8 | Props/Histogram | Real arithmetic; np.histogramdd modelled from its documented behaviour. Also shown: standardisation has no effect on the estimate. |
| C29 | Linear- and quadratic-memory neural objectives agree | proved | 4 | Props/Losses | exact real arithmetic with -inf/inf; batches of two or more pairs (one or more for InfoNCE); the common value is the documented formula |
| C30 | Neural objectives obey their variational bounds | proved | 6 | Props/Losses | infonce_shift_y shows that the invariance is for functions of x only |
| C31 | Donsker-Varadhan and NWJ lower-bound the true mutual information | proved | 3 | Props/Losses | any joint law on measurable spaces, i.i.d. batches; critics need not be bounded, only integrable (bounded_critic: bounded ones are); NWJ and InfoNCE at any batch size, Donsker-Varadhan in the population limit (its plug-in on finite batches is biased) |
| C32 | Training runs a bounded number of steps and tests on schedule | proved | 5 | Props/NeuralEstimator, Props/Training |  |
| C33 | Reported neural estimate is the best test value | partial | 4 | Props/Training | True unless the first logged test value is NaN, in which case the final value stays NaN (proved as counterexample). |
| C34 | Early stopping fires only after two consecutive non-improvements | proved | 4 | Props/Finer, Props/Training |  |
| C35 | Training diagnostics never crash and flag what they say | proved | 4 | Props/Training | The last two theorems record surprising consequences of the rule. |
| C36 | MINE denominator is an exponential moving average | partial | 11 | Props/Mine | The moving average and the gradient are proved for every sequence of batches. The claim that smoothing is negligible at the start is false: the average starts at zero without bias correction, so the gradient of the second term in the first step is 1/(1-alpha) times too large (first_step_gradient, start_is_not_negligible). Gradients are Frechet derivatives; critics are assumed differentiable at the points used. |
| C37 | Mini-batches keep X and Y paired and train/test sets disjoint | partial | 15 | Props/Batches, Props/NeuralEstimator | Proved for every split fraction. With train_test_split=None, which the parameters allow, both parts are the whole data set, so disjointness is false there (trainTestSplit_disjoint_false). JAX and scikit-learn draws are parameters satisfying IdealRng. |
| C38 | Running an estimator never loses a run and reports failures | proved | 3 | Props/RunEstimator | Reading the sample is outside the try block: run_unreadable. |
| C39 | Running an estimator does not modify its arguments | partial | 3 | Props/RunEstimator | False for a non-empty additional_information: it is aliased and updated in place (negation proved, with the leak between runs). |
| C40 | Saving and reading a sample is the identity | proved | 4 | Props/SampleIO | CSV text formatting and parsing of numbers is a parameter; the table layout, header check and column split are modelled. |
| C41 | Chunker partitions the index range | proved | 3 | Props/Chunker |  |
| C42 | ProductSpace keeps pairing and standardises columns | proved | 11 | Props/Details, Props/ProductSpace | Real arithmetic; StandardScaler modelled from its documentation with its float epsilon as a parameter. |
| C43 | A task advertises exactly its sampler | proved | 4 | Props/Task | id raises for a sampler with negative or NaN mutual information (id_ok_iff). |
| C44 | Task identifiers are unique and determine the task | partial | 7 | Props/TaskIds | The benchmark registry has unique ids and lookup works. For arbitrary constructor arguments ids collide; three collisions are proved. |
| C45 | YAML dump of task metadata round-trips | partial | 4 | Props/Dumper | The full claim is false: an Enum whose value is a Path or numpy scalar raises (dump_enum_of_path_fails). |
| C46 | Timer reports elapsed time | proved | 4 | Props/Timer | Non-negativity assumes a monotone clock; time.perf_counter is a parameter. |
| C47 | External estimators are invoked with the right arguments | partial | 10 | Props/External | Proved for all samples with at least one column on each side, all parameters and all libraries: the estimate is the result of the intended library call, as printed. The full claim is false: BNSL with proc not in {1, 2, 10} can be constructed but every estimate fails (bnsl_never), the documented value 0 is refused (bnsl_zero), any message on the error stream makes the call fail (run_warning), and columns are taken by position, not name (path_exchanged). |
| C48 | Gaussian mixture posterior estimator honours its configuration | partial | 20 | Props/Gmm | One clause of the statement is false for the code: the configured concentration alpha is never passed to the model (alpha_ignored), although the model depends on it (model_alpha). The other clauses are proved for every sequence of calls: keys are never used twice, all other hyperparameters reach the sampler, nothing is given before a run, and the estimate is the mean over the configured number of distinct samples. Indices out of range are clamped instead of refused, and a failed run keeps the former posterior. NUTS is a parameter of the model. |
| C49 | Subplot layout places axes exactly | proved | 7 | Props/Subplots | Exact numbers; matplotlib's Divider with fixed sizes is modelled by its documented placement. Beyond the claim: a single axes is returned bare even with squeeze=False. |
| C50 | Benchmark tables use the requested sample size | partial | 11 | Props/Tables | The claim fails in the code: the filter on the number of samples is overwritten, so the argument is ignored (benchmarkTable_ignores_n_samples, convergenceTable_ignores_n_samples, counterexample benchmarkTable_mean_false). The partial theorem proves the claim when every result has the requested size. |
| C51 | CCA estimator reports Gaussian mutual information of canonical correlations | proved | 9 | Lemmas/Cca, Props/Cca | scikit-learn's CCA is a parameter. estimate_canonical: whenever it returns canonical variables, the estimate is the mutual information of the normal law with the sample covariance. |
| C52 | KDE estimator combines the three entropies | proved | 11 | Props/Kde | scikit-learn's KernelDensity is modelled from its documentation with exact arithmetic; the normalising constants of the kernels are positive parameters. Numbers that no fit accepts as bandwidth pass construction (create_accepts_negative) and give a ValueError when estimating. |
| C53 | Critic network shapes compose | partial | 5 | Props/Critic | Only the total length of the two points is checked: a critic for (dim_x, dim_y) accepts points of dimensions (dim_y, dim_x) (mlp_swapped_dimensions). Everything else is proved for all dimensions, hidden sizes and weights. |
| C54 | Bimodal task has the advertised mutual information | partial | 7 | Props/Bimodal, Props/BimodalStrict | The claim is false for the code: the numerical inverse takes finitely many values, and for every correlation other than 0 the mutual information of the points is strictly smaller than the reported number (bimodalTask_overstates, bimodalTask_correct_iff). With exact inverse functions the reported number is exact (bimodal_exact_correct) and the marginals are the documented mixtures (bimodal_marginal). |
| C55 | Student-t mutual information is finite for every accepted number of degrees of freedom | partial | 4 | Props/CorrectionFigure, Props/Finer, Props/Student | False: for df >= 344 the gamma function overflows and the number is NaN, and just below it can be inf. Proved for 1 <= df and df + dim_x + dim_y <= 343. |
| C56 | Student-t sampler returns arrays of the advertised shapes | partial | 2 | Props/Student | False for a single point: the array returned by SciPy is squeezed and the shape assertion fails. Proved for every other number of points. |
| C57 | Gaussian and Student-t benchmark tasks have the advertised structure and mutual information | proved | 11 | Props/NormalTasks | Laws are those of the mathematical normal and Student-t vectors; the generators of JAX and SciPy are assumed to produce them (IdealRandom, IdealStudent). Real arithmetic. Student-t draws exclude n_points = 1 (see C56). |
| C58 | Pointwise mutual information is the log-density and its Monte Carlo mean an honest estimate | proved | 3 | Props/BmmPmi | jnp.std is the population standard deviation, whence the factor (n-1)/n. The semantics of TensorFlow Probability (Mixture, Blockwise, TransformedDistribution, linear-operator distributions) and of jnp.linalg.cholesky is assumed (Model/Bmm, IdealTfp). Real arithmetic. |
| C59 | Mixing creates at most the entropy of the proportions | proved | 2 | Props/BmmMixtureMI | The semantics of TensorFlow Probability (Mixture, Blockwise, TransformedDistribution, linear-operator distributions) and of jnp.linalg.cholesky is assumed (Model/Bmm, IdealTfp). Real arithmetic. |
| C60 | Reported mutual information of a BMM sampler is not negative | partial | 4 | Props/BmmMixtureMI, Props/Chernoff | False: for every law of dependent variables with a positive density the estimate is negative with positive probability, whatever the number of points (monteCarlo_negative). What is true is that this probability is at most Var[pmi]/(n I^2). The semantics of TensorFlow Probability (Mixture, Blockwise, TransformedDistribution, linear-operator distributions) and of jnp.linalg.cholesky is assumed (Model/Bmm, IdealTfp). Real arithmetic. |
| C61 | A critic without hidden layers reports no information | proved | 5 | Props/AdditiveCritic | Batches and test parts of at least two points for the three objectives (smaller ones give NaN). |
| C62 | Neural estimators are total on valid input | proved | 9 | Props/Details, Props/NeuralEstimator | The statement is about MINE. The other estimators accept test_every_n_steps=0 and split fractions outside (0, 1), and then raise during estimation (estimate_zero_period, estimate_refuses). |
| C63 | Mixture benchmark tasks sample the advertised laws and encode information | proved | 18 | Props/MixtureTasks, Props/MixtureTasksMI, Props/MixtureTasksRefuse | Over real numbers and an ideal source of randomness (IdealTfp); the mean of the reported number is over keys in the place of the fixed seed. |
| C64 | Tasks that preprocess samples keep what they advertise and the order of the data | proved | 19 | Props/Scaling | scikit-learn's scale and quantile_transform are modelled from their documented behaviour; real arithmetic, finite values. Order and ties are kept by uniformising for at least two quantiles and samples below scikit-learn's subsampling limit; what happens otherwise is proved (uniformise_one_quantile, uniformise_large_collapses), as is the merging of values within 1e-7 of the extremes by gaussianising. |
| C65 | PMI profile of a multivariate normal distribution | proved | 6 | Props/PmiProfile | Any square roots of the covariance blocks may be used for the whitening. Randomness of TensorFlow Probability as in IdealTfp; real arithmetic. The plotting in the script is not modelled. |
| C66 | The benchmark workflow reports each run once and correctly | proved | 14 | Lemmas/Workflow, Props/Finer, Props/Workflow | Snakemake is assumed to match output patterns with greedy wildcards and to run each job once; files of earlier runs, memory limits and cluster settings are not modelled. YAML is a parameter here (see C45 for the dumper). |
| C67 | The benchmark figures show what the results say | proved | 15 | Props/FigureTables | Colours, heat maps and infinite estimates are not modelled; pandas grouping, pivoting and means are definitions of the model. |
| C68 | Reading results keeps what was measured; the table of the paper | proved | 15 | Props/Details, Props/ReadResults | YAML is a parameter; printing of numbers is not modelled. The statement includes two disagreements with what a reader of the table expects. |
| C69 | Tasks between dense and sparse interactions have the wanted information | proved | 13 | Props/Sparsity | In real arithmetic with ideal random numbers; within 1e-9 of the two limits of the search the outcome is left open. |
| C70 | Contamination of a signal by noise | proved | 10 | Props/Outliers | Over any ideal source of randomness (IdealTfp) in real arithmetic; the printing and reading of the numbers in file names is a parameter that has to read back the levels and variances used. The rescaled copies of the tasks, the rules running estimators and the drawing are not modelled here (the rescaling and the benchmark rules are C64 and C66). |
| C71 | What the bounds make of a known pointwise mutual information | proved | 8 | Props/Finer, Props/Integration | Over any ideal source of randomness (IdealTfp) in real arithmetic. integrates holds for every law with an integrable pointwise mutual information and every bounded measurable bias. Means and standard deviations drawn in the plots are not modelled. |
| C72 | Figures of pointwise mutual information profiles | partial | 9 | Props/Profiles, Props/ProfilesPlot | False for the code: both workflows pass the arguments of sample in the wrong order, and it is proved that no figure is ever made (figure_fails, plot_fails). The theorems ending in _partial prove the claim for the same workflows with the arguments in order; there, carrying over with the numerical inverse functions strictly loses mutual information. Over any ideal source of randomness (IdealTfp) in real arithmetic. |
| C73 | Profiles of the five distributions of the gallery | proved | 7 | Props/Gallery | Assumes draws follow the laws of the distributions (IdealTfp); the random source is arbitrary. The average without NaNs in the title is left out. |
| C74 | Benchmark of the mixture model estimator | proved | 8 | Props/Details, Props/GmmBenchmark | The posterior of the estimator is a parameter (a list of floats, NaN and infinite ones included). Sums and percentiles in real arithmetic. Estimator names contain no line break, seeds are not negative. |
| C75 | A continuous variable and a bit | proved | 7 | Props/Discrete | Random numbers of TensorFlow Probability and uniform numbers drawn from the right laws (IdealTfp, IdealUniform; both hold for the witness in Lemmas/DiscreteWitness.lean). Real arithmetic. |
| C76 | Example distributions and figures of fitted mixtures | proved | 11 | Props/Details, Props/Fitting | Draws follow the laws of the distributions (IdealTfp); the sampler of NumPyro is a parameter which returns 800 samples in the support of the prior. Histograms and the axis of the profiles are left out. |
| C77 | Best critics of the objectives | proved | 7 | Props/OptimalCritic | Exact real arithmetic; integrability of the critic (and of its exponential for NWJ and Donsker-Varadhan) and measurability are hypotheses. Batches are independent draws of the joint law. |
| C78 | The notebook on critics shows each trained critic beside the pointwise mutual information, so that equal panels mean an optimal critic up to its freedom | proved | 8 | Props/CriticPlots | Numbers are real; tfp objects and the neural library satisfy the assumptions of the trusted base; what matplotlib draws from arrays, bins and colours is outside the model. |
| C79 | Figure comparing the mixture model with other estimators | partial | 12 | Props/CompareFigure | False for intervals that do not contain their mean (skewed); proved for all others. Numbers are real. |
| C80 | The script validating the profile of normal distributions | proved | 4 | Props/ChiCheck | jax.random.split and normal draw independent keys and standard normal numbers (trusted base); real arithmetic; a non-empty list of correlations. |
| C81 | The illustration of appearing and vanishing mutual information | proved | 5 | Props/Appearing | Grid points as real numbers; pixels as matplotlib places them for the extent [0, 2]. |
| C82 | Figures of mutual information against a parameter | proved | 17 | Props/Concept, Props/Details, Props/MiFigure | Numbers handed to matplotlib; float arithmetic as real arithmetic. The tasks are any tasks with the identifiers and parameters of the lists and the mutual information of the modelled constructors. |
| C83 | How seldom Monte Carlo estimates of mutual information are negative | proved | 4 | Props/Chernoff | Tail bounds by exponential moments: the mean of exp(-pmi) under the law is at most one, that of exp(-pmi/2) is the affinity of the law and the product of its marginals. Test functions for the four examples are sines and cosines. |
| C84 | The workflow showing the example distributions | proved | 5 | Props/CoolTasks | If one of the numbers is negative, loading raises; the probability bound is that of C83. Estimators are parameters. |
| C85 | The correction of mutual information for Student-t laws | proved | 8 | Props/CorrectionFigure | The function in exact arithmetic; the figure with floats that overflow in the gamma function. |
| C86 | Figures of the concept: distorted normal pairs keep their information | partial | 5 | Props/Concept, Props/Scripts | False as it stands: both programs import bmi.api, which does not exist, and raise ImportError (concept_fails). Proved for main once the imports succeed. Formatting rounds ties up; limits and ticks are not modelled. |
| C87 | The experiment with KSG and spirals | partial | 4 | Props/Concept, Props/Scripts | False as it stands: the program imports bmi.api, which does not exist, and raises ImportError (spiral_fails). Proved for main once the imports succeed. The estimator is a parameter. |
| C88 | Figure with growing mutual information: wanted values are attained and shown where they belong | proved | 5 | Props/HighMi | Exact arithmetic; formatting rounds ties up. |
| C89 | Figure of pointwise mutual information and trained critics: both rows show functions of the coordinates on the axes | partial | 11 | Props/PmiFigure | Everything but the last sentence is proved; its negation is proved with probability one, for all six columns. The critic of the figure is trained in standardised coordinates. |
| C90 | BENCHMARK_TASKS: every task samples from the law it describes and advertises the mutual information of this law | partial | 8 | Props/Details, Props/Registry | Proved for 39 of the 40 tasks and for all towers of transforms over the base tasks; the negation is proved for the bimodal task. |
| C91 | Benchmark workflows of the paper: all tasks asked for exist, and each cell of each figure is the statistic of the right runs | partial | 20 | Props/Finer, Props/PaperBenchmark, Props/PaperSetups, Props/PaperTasks | Proved except for two points where the code violates the claim: one ambiguous key of an estimator, and the figure of estimates of neural_arch when all runs on a task are negative; negations proved. |
| C92 | Figure of transformed samplers: one cloud of points shown in five ways, with the same shades | proved | 5 | Props/SamplerFigure |  |
| C93 | Figure between dense and sparse interactions: the tasks found, the two panels, and the heatmaps | proved | 3 | Props/SparsityFigure |  |
| C94 | What the neural estimators can report: ceiling, constants, units, backend | proved | 9 | Props/Finer, Props/NeuralNamed |  |
| C95 | Small noise breaks ties without creating information | partial | 7 | Props/AddNoise | The last sentence is proved for noise from generators with independent states and is false if the same key is used for both variables, as by default: discrete variables then get infinite mutual information. |
| C96 | A function wrapped as an estimator | proved | 3 | Props/FunctionWrapper |  |
| C97 | Noise on one variable makes the KSG estimates finite | proved | 3 | Props/NoisyKsg |  |
| C98 | CCA finds the mutual information of normal variables in the long run | proved | 4 | Props/CcaConsistent | Assumes that the fit of scikit-learn returns canonical variables. |
| C99 | Monte Carlo estimates converge and their standard errors mean what they say | proved | 6 | Props/MonteCarloLimit |  |
| C100 | What the histogram estimator finds in the long run | proved | 5 | Props/HistogramBounded, Props/HistogramLimit |  |
| C101 | The objectives of the neural estimators settle as the batch grows | proved | 8 | Props/BatchLimit |  |
| C102 | The error of the histogram estimator on many points vanishes as the cells get narrow | proved | 3 | Props/HistogramFine |  |
| C103 | Which mutual information the MLP critics can find | proved | 4 | Props/CriticRich |  |
| C104 | Which of the programs in scripts/ can be started | proved | 8 | Props/Scripts | Third-party modules are described by a parameter; a module of bmi which is found is taken to run. |
| C105 | Kernel density estimator with many points and fixed bandwidths: limits, and that they are too small for normal variables | proved | 10 | Props/KdeLimit, Props/KdeNormal, Props/KdeStandard | Real arithmetic; with standardisation the float epsilon is zero. The normalising constants of scikit-learn are parameters, taken to be positive and (2 pi)^(d/2) for Gaussian kernels. |
| C106 | Kernel density estimator with the bandwidths of Scott or Silverman: consistent | proved | 7 | Lemmas/KdeShape, Props/KdeRule, Props/KdeTasks | Real arithmetic; with standardisation the float epsilon is zero. The normalising constants of scikit-learn are taken to be the integrals of the kernels. |
| C107 | Kernel density estimator on the tasks of the benchmark: consistent | proved | 3 | Props/KdeBenchmark | Real arithmetic; with standardisation the float epsilon is zero. The normalising constants of scikit-learn are taken to be the integrals of the kernels. Generators ideal as for C90. |
| C108 | Kernel density estimator on mixtures and on the mixture tasks: consistent | proved | 7 | Props/KdeMixture | Real arithmetic; with standardisation the float epsilon is zero. The normalising constants of scikit-learn are taken to be the integrals of the kernels. Generators and TensorFlow Probability ideal as for C57 and C63. BMMSampler refuses samples of size 0, as the code does. |
| C109 | CCA on variables with normal marginals and on mixtures: what it finds in the limit | proved | 7 | Props/CcaMixture | Real arithmetic. scikit-learn CCA is assumed to find canonical variables whenever the sample covariance is invertible (CanonicalFit, shown satisfiable by exists_canonicalFit). Generators and TensorFlow Probability ideal as for C57 and C63. The tasks Galaxy and Waves are not covered. |
| C110 | CCA on the transformed tasks of the benchmark: at most the mutual information in the limit; but it is no lower bound | proved | 5 | Props/CcaTasks | Real arithmetic. scikit-learn CCA is assumed to find canonical variables whenever the sample covariance is invertible (CanonicalFit, shown satisfiable by exists_canonicalFit). Generators ideal as for C57. The bound is Gebelein's inequality, proved in Lemmas/Gebelein, and for spirals and rotations its version for products, proved in Lemmas/Maxcor. |
| C111 | CCA on normal variables mapped to the unit interval: it finds the rank correlation, which is less than there is | proved | 2 | Props/CcaRank | Real arithmetic. scikit-learn CCA is assumed to find canonical variables whenever the sample covariance is invertible (CanonicalFit, shown satisfiable by exists_canonicalFit). Generators ideal as for C57. The correlation of ranks of normal variables is computed in Lemmas/RankCor. |
| C112 | CCA on transformed normal variables: strictly less than the mutual information in the limit | proved | 5 | Props/CcaStrict | Real arithmetic. scikit-learn CCA is assumed to find canonical variables whenever the sample covariance is invertible (CanonicalFit, shown satisfiable by exists_canonicalFit). Generators ideal as for C57. Rests on the case of equality in the inequality of Gebelein, proved in Lemmas/CcaStrict. Strictness is shown for one transform, for towers with the normal CDF on top and for the Swiss roll; in general two transforms can cancel (cca_undone). |
