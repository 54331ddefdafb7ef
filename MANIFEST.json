{
 "claims": [
  {
   "property": "C01",
   "status": "proved",
   "theorems": [
    "BMI.Samplers.splitMultinormal_correct",
    "BMI.Samplers.bivariateNormal_correct",
    "BMI.Samplers.splitMultinormal_default_mean",
    "BMI.Samplers.bivariateNormal_rejects"
   ],
   "note": "Correct means: sample() draws independent pairs with the stated law (given ideal jax.random) and the reported number is the KL divergence of that law from the product of its marginals."
  },
  {
   "property": "C02",
   "status": "proved",
   "theorems": [
    "BMI.Samplers.multinormal_nonneg_before_clamp",
    "BMI.Samplers.multinormal_zero_iff",
    "BMI.Samplers.multinormal_mean_irrelevant",
    "BMI.Samplers.multinormal_swap",
    "BMI.Samplers.actOn_mulVec",
    "BMI.Samplers.multinormal_linear",
    "BMI.Samplers.bivariate_eq_split"
   ],
   "note": ""
  },
  {
   "property": "C03",
   "status": "partial",
   "theorems": [
    "BMI.Samplers.splitMultinormal_accepts_iff_partial",
    "BMI.Samplers.splitMultinormal_accepts_asymmetric",
    "BMI.Samplers.canBeCovariance_ignores_symmetry"
   ],
   "note": "Full characterisation for symmetric arrays. The property is false for asymmetric ones, because the symmetry check never fires; proved with the witness [[1, 1/2], [0, 1]]."
  },
  {
   "property": "C04",
   "status": "proved",
   "theorems": [
    "BMI.Samplers.additiveUniform_correct",
    "BMI.Samplers.additiveUniform_rejects"
   ],
   "note": "Both branches of the formula, with jax.random idealised (IdealRandom)."
  },
  {
   "property": "C05",
   "status": "proved",
   "theorems": [
    "BMI.Samplers.discreteUniformMixture_correct",
    "BMI.Samplers.discreteUniformMixture_rejects",
    "BMI.Samplers.multivariateDiscreteUniformMixture_correct",
    "BMI.Samplers.multivariateDiscreteUniformMixture_rejects"
   ],
   "note": "With jax.random idealised (IdealRandom)."
  },
  {
   "property": "C06",
   "status": "partial",
   "theorems": [
    "BMI.Samplers.zeroInflatedPoisson_law",
    "BMI.Samplers.zeroInflatedPoissonMI_converges",
    "BMI.Samplers.zeroInflatedPoissonMI_rejects",
    "BMI.Samplers.zeroInflatedPoisson_exact_partial",
    "BMI.Samplers.zeroInflatedPoisson_overreports"
   ],
   "note": "the property holds for p = 0 only; for every 0 < p < 1 the reported value is proved to be strictly larger than the mutual information, at every truncation"
  },
  {
   "property": "C07",
   "status": "proved",
   "theorems": [
    "BMI.Samplers.transformed_correct",
    "BMI.Samplers.transformed_upper_bound",
    "BMI.Samplers.transformed_rejects"
   ],
   "note": ""
  },
  {
   "property": "C08",
   "status": "proved",
   "theorems": [
    "BMI.Samplers.concatenation_correct",
    "BMI.Samplers.concatenation_nil"
   ],
   "note": ""
  },
  {
   "property": "C09",
   "status": "proved",
   "theorems": [
    "BMI.Samplers.halfCube_injective",
    "BMI.Samplers.wiggly_strictMono",
    "BMI.Samplers.normalCdf_spec",
    "BMI.Samplers.normalCdf_uniform",
    "BMI.Samplers.power_injective_iff",
    "BMI.Samplers.swissroll_injective",
    "BMI.Samplers.swissroll_not_injective",
    "BMI.Samplers.waves_injective",
    "BMI.Samplers.halfCubeTask_correct",
    "BMI.Samplers.asinhTask_correct",
    "BMI.Samplers.wigglyTask_correct",
    "BMI.Samplers.normalCdfTask_correct",
    "BMI.Samplers.powerTask_correct",
    "BMI.Samplers.powerTask_correct_neg",
    "BMI.Samplers.swissrollTask_correct",
    "BMI.Samplers.swissrollTask_rejects",
    "BMI.Samplers.spiralTask_correct",
    "BMI.Samplers.spiralTask_rejects",
    "BMI.Samplers.rotateTask_correct",
    "BMI.Samplers.rotateTask_rejects",
    "BMI.Samplers.galaxy_correct",
    "BMI.Samplers.waves_correct"
   ],
   "note": "Injectivity of every transform, and for each task that applies one: over a correct base sampler the transformed sampler is correct and reports the base's number. The power transform is accepted with exponent 0, for which it is not injective; the Swiss roll is injective on [-1/2, oo) but not on the real line. Floats are real numbers; erf and expm are the mathematical functions."
  },
  {
   "property": "C10",
   "status": "proved",
   "theorems": [
    "BMI.Samplers.spiral_accepts_iff",
    "BMI.Samplers.spiral_norm",
    "BMI.Samplers.spiral_bijective",
    "BMI.Samplers.spiral_undo",
    "BMI.Samplers.spiral_undo_plain",
    "BMI.Samplers.spiral_turns",
    "BMI.Samplers.soGenerator_spec",
    "BMI.Samplers.skewSymmetrize_spec"
   ],
   "note": "All dimensions, generators, speeds and points; spiral_turns gives the closed form for canonical generators."
  },
  {
   "property": "C100",
   "status": "proved",
   "theorems": [
    "BMI.Consistency.histogram_bounded",
    "BMI.Consistency.exists_cells",
    "BMI.Consistency.histogram_additiveUniform",
    "BMI.Consistency.histogram_normal",
    "BMI.Consistency.histogram_default"
   ],
   "note": ""
  },
  {
   "property": "C101",
   "status": "proved",
   "theorems": [
    "BMI.Batch.nwj_limit",
    "BMI.Batch.donskerVaradhan_limit",
    "BMI.Batch.infonce_limit",
    "BMI.Batch.limits_le_mi",
    "BMI.Batch.limits_optimal",
    "BMI.Batch.MeanConverges.expectation",
    "BMI.Batch.MeanConverges.probability",
    "BMI.Batch.MeanConverges.sampler"
   ],
   "note": ""
  },
  {
   "property": "C102",
   "status": "proved",
   "theorems": [
    "BMI.Consistency.histogram_fine",
    "BMI.Consistency.histogram_bias",
    "BMI.Consistency.histogram_additiveUniform_fine"
   ],
   "note": ""
  },
  {
   "property": "C103",
   "status": "proved",
   "theorems": [
    "BMI.Critic.mlp_rich",
    "BMI.Critic.mlp_rich_additiveUniform",
    "BMI.Critic.mlp_no_hidden_blind",
    "BMI.Critic.separable_blind"
   ],
   "note": ""
  },
  {
   "property": "C104",
   "status": "proved",
   "theorems": [
    "BMI.Scripts.importModule_spec",
    "BMI.Scripts.runScript_main",
    "BMI.Scripts.runScript_error",
    "BMI.Scripts.api_scripts_fail",
    "BMI.Scripts.other_scripts_run",
    "BMI.Scripts.api_scripts_repaired",
    "BMI.Scripts.timeMain_spec",
    "BMI.Scripts.timeMain_refuses"
   ],
   "note": "Third-party modules are described by a parameter; a module of bmi which is found is taken to run."
  },
  {
   "property": "C105",
   "status": "proved",
   "theorems": [
    "BMI.Kde.kde_limit",
    "BMI.Kde.kde_limit_standardised",
    "BMI.Kde.kde_independent",
    "BMI.Kde.kde_normal",
    "BMI.Kde.kde_normal_low",
    "BMI.Kde.kde_normal_anti",
    "BMI.Kde.kde_normal_small",
    "BMI.Kde.kde_normal_standardised",
    "BMI.Kde.kde_normal_standardised_small",
    "BMI.Kde.correlation_posDef"
   ],
   "note": "Real arithmetic; with standardisation the float epsilon is zero. The normalising constants of scikit-learn are parameters, taken to be positive and (2 pi)^(d/2) for Gaussian kernels."
  },
  {
   "property": "C106",
   "status": "proved",
   "theorems": [
    "BMI.Kde.kde_consistent",
    "BMI.Kde.kde_multinormal",
    "BMI.Kde.kde_student",
    "BMI.Kde.kde_bounded",
    "BMI.Kde.kde_additiveUniform",
    "BMI.Kde.width_rule",
    "BMI.Kde.mass_pos"
   ],
   "note": "Real arithmetic; with standardisation the float epsilon is zero. The normalising constants of scikit-learn are taken to be the integrals of the kernels."
  },
  {
   "property": "C107",
   "status": "proved",
   "theorems": [
    "BMI.Kde.kde_tasks",
    "BMI.Kde.kde_benchmark",
    "BMI.Kde.task_sides"
   ],
   "note": "Real arithmetic; with standardisation the float epsilon is zero. The normalising constants of scikit-learn are taken to be the integrals of the kernels. Generators ideal as for C90."
  },
  {
   "property": "C108",
   "status": "proved",
   "theorems": [
    "BMI.Kde.kde_mixture",
    "BMI.Kde.kde_taskX",
    "BMI.Kde.kde_taskAi",
    "BMI.Kde.kde_taskGalaxy",
    "BMI.Kde.kde_taskWaves",
    "BMI.Kde.kde_taskConcentric",
    "BMI.Kde.kde_taskInliers"
   ],
   "note": "Real arithmetic; with standardisation the float epsilon is zero. The normalising constants of scikit-learn are taken to be the integrals of the kernels. Generators and TensorFlow Probability ideal as for C57 and C63. BMMSampler refuses samples of size 0, as the code does."
  },
  {
   "property": "C109",
   "status": "proved",
   "theorems": [
    "BMI.Cca.normal_le_mi",
    "BMI.Cca.cca_normal_marginals",
    "BMI.Cca.cca_mixture",
    "BMI.Cca.cca_taskX",
    "BMI.Cca.cca_taskConcentric",
    "BMI.Cca.cca_taskAi",
    "BMI.Cca.cca_taskInliers"
   ],
   "note": "Real arithmetic. scikit-learn CCA is assumed to find canonical variables whenever the sample covariance is invertible (CanonicalFit, shown satisfiable by exists_canonicalFit). Generators and TensorFlow Probability ideal as for C57 and C63. The tasks Galaxy and Waves are not covered."
  },
  {
   "property": "C11",
   "status": "proved",
   "theorems": [
    "BMI.Student.splitStudentT_correct",
    "BMI.Student.splitStudentT_decomposes",
    "BMI.Student.splitStudentT_covariance",
    "BMI.Student.splitStudentT_accepts_iff"
   ],
   "note": "Law, mutual information (equal to the reported number and positive), decomposition, covariance(). The law of the samples is proved for n != 1; see C56 for n = 1."
  },
  {
   "property": "C110",
   "status": "proved",
   "theorems": [
    "BMI.Cca.cca_tasks",
    "BMI.Cca.cca_odd",
    "BMI.Cca.cca_additive",
    "BMI.Cca.cca_benchmark",
    "BMI.Cca.cca_too_much"
   ],
   "note": "Real arithmetic. scikit-learn CCA is assumed to find canonical variables whenever the sample covariance is invertible (CanonicalFit, shown satisfiable by exists_canonicalFit). Generators ideal as for C57. The bound is Gebelein's inequality, proved in Lemmas/Gebelein, and for spirals and rotations its version for products, proved in Lemmas/Maxcor."
  },
  {
   "property": "C111",
   "status": "proved",
   "theorems": [
    "BMI.Cca.cca_rank",
    "BMI.Cca.cca_ranks"
   ],
   "note": "Real arithmetic. scikit-learn CCA is assumed to find canonical variables whenever the sample covariance is invertible (CanonicalFit, shown satisfiable by exists_canonicalFit). Generators ideal as for C57. The correlation of ranks of normal variables is computed in Lemmas/RankCor."
  },
  {
   "property": "C112",
   "status": "proved",
   "theorems": [
    "BMI.Cca.cca_bent",
    "BMI.Cca.cca_bent_benchmark",
    "BMI.Cca.cca_squashed",
    "BMI.Cca.cca_undone",
    "BMI.Cca.cca_roll"
   ],
   "note": "Real arithmetic. scikit-learn CCA is assumed to find canonical variables whenever the sample covariance is invertible (CanonicalFit, shown satisfiable by exists_canonicalFit). Generators ideal as for C57. Rests on the case of equality in the inequality of Gebelein, proved in Lemmas/CcaStrict. Strictness is shown for one transform, for towers with the normal CDF on top and for the Swiss roll; in general two transforms can cancel (cca_undone)."
  },
  {
   "property": "C12",
   "status": "partial",
   "theorems": [
    "BMI.Student.student_tends_to_gaussian_partial",
    "BMI.Student.infinite_df_is_nan"
   ],
   "note": "False as documented: with df = inf the reported number is NaN. Proved instead: the number tends to the Gaussian mutual information as df grows."
  },
  {
   "property": "C13",
   "status": "proved",
   "theorems": [
    "BMI.MatrixUtils.canonicalCorrelation_spec",
    "BMI.MatrixUtils.canonicalCorrelation_rejects",
    "BMI.MatrixUtils.canonical_posDef_iff",
    "BMI.MatrixUtils.canonical_number"
   ],
   "note": "Entries, positive-definiteness criterion and the number reported by the multinormal sampler, which by C01 is the mutual information. Negative additional_y is rejected."
  },
  {
   "property": "C14",
   "status": "proved",
   "theorems": [
    "BMI.MatrixUtils.parametrisedCorrelationMatrix_spec",
    "BMI.MatrixUtils.parametrisedCorrelationMatrix_rejects",
    "BMI.MatrixUtils.parametrised_not_covariance"
   ],
   "note": "Also proved: accepted correlations need not give a covariance matrix (correlation_x < -1/(dim_x-1))."
  },
  {
   "property": "C15",
   "status": "proved",
   "theorems": [
    "BMI.MatrixUtils.gaussianLVM_spec",
    "BMI.MatrixUtils.covariance_eq_mixing",
    "BMI.MatrixUtils.nLatent_eq",
    "BMI.MatrixUtils.covariance_posDef",
    "BMI.MatrixUtils.correlation_spec"
   ],
   "note": "Real arithmetic. dim_x + dim_y = 0 (where mixing raises) is excluded from the comparison with mixing."
  },
  {
   "property": "C16",
   "status": "proved",
   "theorems": [
    "BMI.MatrixUtils.dense_correlation",
    "BMI.MatrixUtils.sparse_correlation",
    "BMI.MatrixUtils.sparse_variance"
   ],
   "note": ""
  },
  {
   "property": "C17",
   "status": "partial",
   "theorems": [
    "BMI.Samplers.transformed_wellShaped",
    "BMI.Samplers.concatenation_wellShaped",
    "BMI.Samplers.splitMultinormal_wellShaped",
    "BMI.Samplers.bivariateNormal_wellShaped",
    "BMI.Samplers.additiveUniform_wellShaped",
    "BMI.Samplers.discreteUniformMixture_wellShaped",
    "BMI.Samplers.zeroInflatedPoisson_no_dims",
    "BMI.Bmm.bmmSampler_sample",
    "BMI.Student.sample_shapes_partial"
   ],
   "note": "False for ZeroInflatedPoissonizationSampler, whose dimensions raise AttributeError (proved), and for SplitStudentT with n = 1, which raises AssertionError (see C56). Proved for the other sampler classes, including BMMSampler around any consistent joint distribution."
  },
  {
   "property": "C18",
   "status": "proved",
   "theorems": [
    "BMI.Samplers.built_seedsAreKeys",
    "BMI.Samplers.transformed_sample",
    "BMI.Bmm.bmmSampler_seedsAreKeys"
   ],
   "note": "For all sampler classes except SplitStudentT, which hands the seed to SciPy. For BMMSampler also the seed of the Monte Carlo estimate."
  },
  {
   "property": "C19",
   "status": "proved",
   "theorems": [
    "BMI.Search.invertMono_terminates",
    "BMI.Search.invertMono_bracket",
    "BMI.Search.invertMono_terminates_real",
    "BMI.Search.invertMono_real_bracket",
    "BMI.Search.invertMono_accurate",
    "BMI.Search.invertMono_solves",
    "BMI.Search.invertMono_saturates",
    "BMI.Search.invertMono_eq_iterate",
    "BMI.Search.invertMono_mono",
    "BMI.Search.invertMono_finite",
    "BMI.Search.invertCdf_steps",
    "BMI.Search.invertCdf_accurate"
   ],
   "note": "Accuracy, saturation and monotonicity in exact arithmetic; termination and the bracket invariant for any arithmetic satisfying the stated rounding laws. invertMono_finite: the numerical inverse takes finitely many values, so it is not injective."
  },
  {
   "property": "C20",
   "status": "proved",
   "theorems": [
    "BMI.Search.binsearch_sound",
    "BMI.Search.binsearch_calls",
    "BMI.Search.binsearch_raises",
    "BMI.Search.binsearch_unsound",
    "BMI.Search.binsearch_finds",
    "BMI.Search.binsearch_finds_continuous",
    "BMI.Search.getSparseGaussianSampler_correct",
    "BMI.Search.getSparseGaussianSampler_rejects",
    "BMI.Search.generateSparseGaussianTask_correct",
    "BMI.Search.generateSparseGaussianTask_exists",
    "BMI.Search.generateSparseGaussianTask_none",
    "BMI.Search.generateSpiralTask_correct",
    "BMI.Search.generateHalfCubeTask_correct"
   ],
   "note": "Soundness, the call bound and the errors hold for any arithmetic, floats included. The target must not lie within delta of the initial value -1e9: binsearch_unsound shows that otherwise a value is returned although every call raised. The tasks are in exact arithmetic."
  },
  {
   "property": "C21",
   "status": "proved",
   "theorems": [
    "BMI.Bmm.mixture_accepts_iff",
    "BMI.Bmm.mixture_consistent",
    "BMI.Bmm.multivariateNormal_consistent",
    "BMI.Bmm.multivariateStudent_consistent"
   ],
   "note": "Proportions are non-negative and sum up to one, as documented; TensorFlow Probability would normalise others (not modelled). The semantics of TensorFlow Probability (Mixture, Blockwise, TransformedDistribution, linear-operator distributions) and of jnp.linalg.cholesky is assumed (Model/Bmm, IdealTfp). Real arithmetic."
  },
  {
   "property": "C22",
   "status": "proved",
   "theorems": [
    "BMI.Bmm.transform_pmiAt",
    "BMI.Bmm.transform_pmiAt_default",
    "BMI.Bmm.transform_estimate",
    "BMI.Bmm.transform_consistent",
    "BMI.Bmm.product_pmiAt",
    "BMI.Bmm.product_accepts_iff",
    "BMI.Bmm.product_consistent"
   ],
   "note": "PMI is invariant wherever the bijectors undo themselves; if they are diffeomorphisms on the support, the transformed object stands for the transformed law. The semantics of TensorFlow Probability (Mixture, Blockwise, TransformedDistribution, linear-operator distributions) and of jnp.linalg.cholesky is assumed (Model/Bmm, IdealTfp). Real arithmetic."
  },
  {
   "property": "C23",
   "status": "proved",
   "theorems": [
    "BMI.Bmm.bmmSampler_supplied",
    "BMI.Bmm.bmmSampler_estimated",
    "BMI.Bmm.bmmSampler_accepts_iff"
   ],
   "note": "For every finite sequence of calls of sample and mutual_information."
  },
  {
   "property": "C24",
   "status": "partial",
   "theorems": [
    "BMI.KSG.fast_eq_slow_partial",
    "BMI.KSG.fast_ne_slow_of_repeated"
   ],
   "note": "Equal for lists of distinct neighbourhoods. With a repeated neighbourhood the two classes disagree; the disagreement is proved."
  },
  {
   "property": "C25",
   "status": "proved",
   "theorems": [
    "BMI.KSG.fit_perm",
    "BMI.KSG.fit_swap",
    "BMI.KSG.fit_similarity",
    "BMI.KSG.fit_rescale",
    "BMI.KSG.fit_affine"
   ],
   "note": "Real arithmetic."
  },
  {
   "property": "C26",
   "status": "partial",
   "theorems": [
    "BMI.KSG.prediction_nonneg",
    "BMI.KSG.prediction_le",
    "BMI.KSG.prediction_infinite_iff_partial",
    "BMI.KSG.prediction_can_be_infinite"
   ],
   "note": "Non-negative, and bounded without ties. Finiteness is false: the prediction for k is +inf exactly if some sample occurs more than k times."
  },
  {
   "property": "C27",
   "status": "proved",
   "theorems": [
    "BMI.KSG.mkParams_spec",
    "BMI.KSG.fit_too_few",
    "BMI.KSG.fit_enough",
    "BMI.KSG.fit_keys",
    "BMI.KSG.predictions_history",
    "BMI.KSG.estimate_mean"
   ],
   "note": "Whether get_predictions returns a copy is visible in the model as value semantics."
  },
  {
   "property": "C28",
   "status": "proved",
   "theorems": [
    "BMI.Histogram.estimate_is_plugin",
    "BMI.Histogram.isCell_unique",
    "BMI.Histogram.isRange_unique",
    "BMI.Histogram.estimate_bounds",
    "BMI.Histogram.estimate_swap",
    "BMI.Histogram.estimate_perm",
    "BMI.Histogram.estimate_standardize",
    "BMI.Histogram.mkParams_spec"
   ],
   "note": "Real arithmetic; np.histogramdd modelled from its documented behaviour. Also shown: standardisation has no effect on the estimate."
  },
  {
   "property": "C29",
   "status": "proved",
   "theorems": [
    "BMI.Neural.donskerVaradhan_backends",
    "BMI.Neural.nwj_backends",
    "BMI.Neural.infonce_backends",
    "BMI.Neural.objectives_formulas"
   ],
   "note": "exact real arithmetic with -inf/inf; batches of two or more pairs (one or more for InfoNCE); the common value is the documented formula"
  },
  {
   "property": "C30",
   "status": "proved",
   "theorems": [
    "BMI.Neural.infonce_le_log",
    "BMI.Neural.nwj_le_donskerVaradhan",
    "BMI.Neural.donskerVaradhan_shift",
    "BMI.Neural.infonce_shift",
    "BMI.Neural.objectives_order",
    "BMI.Neural.infonce_shift_y"
   ],
   "note": "infonce_shift_y shows that the invariance is for functions of x only"
  },
  {
   "property": "C31",
   "status": "proved",
   "theorems": [
    "BMI.Neural.donskerVaradhan_le_mi",
    "BMI.Neural.nwj_le_mi",
    "BMI.Neural.infonce_le_mi"
   ],
   "note": "any joint law on measurable spaces, i.i.d. batches; critics need not be bounded, only integrable (bounded_critic: bounded ones are); NWJ and InfoNCE at any batch size, Donsker-Varadhan in the population limit (its plug-in on finite batches is biased)"
  },
  {
   "property": "C32",
   "status": "proved",
   "theorems": [
    "BMI.Training.training_spec",
    "BMI.Training.training_reports_steps",
    "BMI.Training.training_zero_period",
    "BMI.Training.training_no_test_nan",
    "BMI.NeuralEstimator.basicStep_ascends"
   ],
   "note": ""
  },
  {
   "property": "C33",
   "status": "partial",
   "theorems": [
    "BMI.Training.final_mi_without_tests",
    "BMI.Training.final_mi_is_max_partial",
    "BMI.Training.final_mi_first_nan",
    "BMI.Training.final_mi_is_max_false"
   ],
   "note": "True unless the first logged test value is NaN, in which case the final value stays NaN (proved as counterexample)."
  },
  {
   "property": "C34",
   "status": "proved",
   "theorems": [
    "BMI.Training.early_stop_iff",
    "BMI.Training.early_stop_iff_of_numbers",
    "BMI.Training.improvement_rearms",
    "BMI.Training.negIdx_ends"
   ],
   "note": ""
  },
  {
   "property": "C35",
   "status": "proved",
   "theorems": [
    "BMI.Training.detect_warnings_spec",
    "BMI.Training.smooth_factor_checked",
    "BMI.Training.decrease_flag_on_constant",
    "BMI.Training.still_increasing_blind"
   ],
   "note": "The last two theorems record surprising consequences of the rule."
  },
  {
   "property": "C36",
   "status": "partial",
   "theorems": [
    "BMI.Mine.denominator_is_ema",
    "BMI.Mine.gradient_is_equation_12",
    "BMI.Mine.value_is_donsker_varadhan",
    "BMI.Mine.no_smoothing_gradient",
    "BMI.Mine.ema_constant",
    "BMI.Mine.ema_last_weight",
    "BMI.Mine.mineTraining_spec",
    "BMI.Mine.first_step_gradient",
    "BMI.Mine.start_is_not_negligible",
    "BMI.Mine.step_follows_equation_12",
    "BMI.Mine.step_ascends"
   ],
   "note": "The moving average and the gradient are proved for every sequence of batches. The claim that smoothing is negligible at the start is false: the average starts at zero without bias correction, so the gradient of the second term in the first step is 1/(1-alpha) times too large (first_step_gradient, start_is_not_negligible). Gradients are Frechet derivatives; critics are assumed differentiable at the points used."
  },
  {
   "property": "C37",
   "status": "partial",
   "theorems": [
    "BMI.NeuralData.getBatch_pairs",
    "BMI.NeuralData.getBatch_full",
    "BMI.NeuralData.samplePairedUnpaired_pairs",
    "BMI.NeuralData.trainTestSplit_partition",
    "BMI.NeuralData.trainTestSplit_disjoint_partial",
    "BMI.NeuralData.trainTestSplit_disjoint_false",
    "BMI.NeuralData.trainTestSplit_error_iff",
    "BMI.NeuralData.getBatch_mispairs",
    "BMI.NeuralEstimator.estimate_batch_too_large",
    "BMI.NeuralEstimator.mine_batch_too_large",
    "BMI.NeuralEstimator.estimate_spec",
    "BMI.NeuralEstimator.estimate_history_independent",
    "BMI.NeuralEstimator.estimate_refuses",
    "BMI.NeuralEstimator.estimate_zero_period",
    "BMI.NeuralEstimator.mine_estimate_total"
   ],
   "note": "Proved for every split fraction. With train_test_split=None, which the parameters allow, both parts are the whole data set, so disjointness is false there (trainTestSplit_disjoint_false). JAX and scikit-learn draws are parameters satisfying IdealRng."
  },
  {
   "property": "C38",
   "status": "proved",
   "theorems": [
    "BMI.Run.run_reports",
    "BMI.Run.run_unreadable",
    "BMI.Run.run_returns_iff"
   ],
   "note": "Reading the sample is outside the try block: run_unreadable."
  },
  {
   "property": "C39",
   "status": "partial",
   "theorems": [
    "BMI.Run.run_pure_partial",
    "BMI.Run.run_mutates_caller",
    "BMI.Run.run_leaks_between_runs"
   ],
   "note": "False for a non-empty additional_information: it is aliased and updated in place (negation proved, with the leak between runs)."
  },
  {
   "property": "C40",
   "status": "proved",
   "theorems": [
    "BMI.SampleIO.read_save",
    "BMI.SampleIO.read_save_exact",
    "BMI.SampleIO.save_ok_iff",
    "BMI.SampleIO.read_foreign_refused"
   ],
   "note": "CSV text formatting and parsing of numbers is a parameter; the table layout, header check and column split are modelled."
  },
  {
   "property": "C41",
   "status": "proved",
   "theorems": [
    "BMI.Chunker.chunker_error_iff",
    "BMI.Chunker.chunker_concat",
    "BMI.Chunker.chunker_shape"
   ],
   "note": ""
  },
  {
   "property": "C42",
   "status": "proved",
   "theorems": [
    "BMI.PSpace.scaled_mean",
    "BMI.PSpace.scaled_var",
    "BMI.PSpace.scaled_const",
    "BMI.PSpace.flagged_zero_iff",
    "BMI.PSpace.scaled_affine_invariant",
    "BMI.PSpace.scaled_scale_invariant",
    "BMI.PSpace.init_length_mismatch",
    "BMI.PSpace.init_spec",
    "BMI.PSpace.getItem_spec",
    "BMI.PSpace.init_empty",
    "BMI.PSpace.len_spec"
   ],
   "note": "Real arithmetic; StandardScaler modelled from its documentation with its float epsilon as a parameter."
  },
  {
   "property": "C43",
   "status": "proved",
   "theorems": [
    "BMI.Task.task_advertises",
    "BMI.Task.id_ok_iff",
    "BMI.Task.sample_delegates",
    "BMI.Task.save_sample_roundtrip"
   ],
   "note": "id raises for a sampler with negative or NaN mutual information (id_ok_iff)."
  },
  {
   "property": "C44",
   "status": "partial",
   "theorems": [
    "BMI.TaskIds.id_injective_partial",
    "BMI.TaskIds.spiral_collision",
    "BMI.TaskIds.quantile_collision",
    "BMI.TaskIds.rounding_collision",
    "BMI.TaskIds.registry_ids_nodup",
    "BMI.TaskIds.lookup_by_id",
    "BMI.TaskIds.benchmark_registry"
   ],
   "note": "The benchmark registry has unique ids and lookup works. For arbitrary constructor arguments ids collide; three collisions are proved."
  },
  {
   "property": "C45",
   "status": "partial",
   "theorems": [
    "BMI.Dumper.dump_means_partial",
    "BMI.Dumper.dump_enum_of_path_fails",
    "BMI.Dumper.means_unique",
    "BMI.Dumper.dump_unknown_raises"
   ],
   "note": "The full claim is false: an Enum whose value is a Path or numpy scalar raises (dump_enum_of_path_fails)."
  },
  {
   "property": "C46",
   "status": "proved",
   "theorems": [
    "BMI.Timer.check_elapsed",
    "BMI.Timer.lastReset_is_last",
    "BMI.Timer.reported_nonneg",
    "BMI.Timer.intervals_disjoint"
   ],
   "note": "Non-negativity assumes a monotone clock; time.perf_counter is a parameter."
  },
  {
   "property": "C47",
   "status": "partial",
   "theorems": [
    "BMI.External.rCall_ok",
    "BMI.External.juliaCall_ok",
    "BMI.External.run_spec",
    "BMI.External.estimate_partial",
    "BMI.External.estimate_refuses",
    "BMI.External.constructed_iff",
    "BMI.External.bnsl_never",
    "BMI.External.bnsl_zero",
    "BMI.External.run_warning",
    "BMI.External.path_exchanged"
   ],
   "note": "Proved for all samples with at least one column on each side, all parameters and all libraries: the estimate is the result of the intended library call, as printed. The full claim is false: BNSL with proc not in {1, 2, 10} can be constructed but every estimate fails (bnsl_never), the documented value 0 is refused (bnsl_zero), any message on the error stream makes the call fail (run_warning), and columns are taken by position, not name (path_exchanged)."
  },
  {
   "property": "C48",
   "status": "partial",
   "theorems": [
    "BMI.Gmm.calls_fresh",
    "BMI.Gmm.runMcmc_partial",
    "BMI.Gmm.runMcmc_refuses",
    "BMI.Gmm.runMcmc_zero",
    "BMI.Gmm.runMcmc_stale",
    "BMI.Gmm.calls_before_run",
    "BMI.Gmm.alpha_ignored",
    "BMI.Gmm.model_alpha",
    "BMI.Gmm.model_alpha_zero",
    "BMI.Gmm.getPosteriorMi_spec",
    "BMI.Gmm.getPosteriorMi_edges",
    "BMI.Gmm.create_thinned",
    "BMI.Gmm.getBmmDistribution_clamps",
    "BMI.Gmm.covMatrix_posDef",
    "BMI.Gmm.component_law",
    "BMI.Gmm.sampleIntoBmm_spec",
    "BMI.Gmm.sampleIntoBmm_refuses",
    "BMI.Gmm.covMatrix_apply",
    "BMI.Gmm.covMatrix_scales",
    "BMI.Gmm.getSampleMi_spec"
   ],
   "note": "One clause of the statement is false for the code: the configured concentration alpha is never passed to the model (alpha_ignored), although the model depends on it (model_alpha). The other clauses are proved for every sequence of calls: keys are never used twice, all other hyperparameters reach the sampler, nothing is given before a run, and the estimate is the mean over the configured number of distinct samples. Indices out of range are clamped instead of refused, and a failed run keeps the former posterior. NUTS is a parameter of the model."
  },
  {
   "property": "C49",
   "status": "proved",
   "theorems": [
    "BMI.Subplots.subplots_spec",
    "BMI.Subplots.placed_inside",
    "BMI.Subplots.placed_disjoint",
    "BMI.Subplots.subplots_refuses",
    "BMI.Subplots.subplots_refuses_empty",
    "BMI.Subplots.pack_spec",
    "BMI.Subplots.single_ignores_squeeze"
   ],
   "note": "Exact numbers; matplotlib's Divider with fixed sizes is modelled by its documented placement. Beyond the claim: a single axes is returned bare even with squeeze=False."
  },
  {
   "property": "C50",
   "status": "partial",
   "theorems": [
    "BMI.Tables.benchmarkTable_spec",
    "BMI.Tables.benchmarkTable_mean_partial",
    "BMI.Tables.benchmarkTable_mean_false",
    "BMI.Tables.benchmarkTable_ignores_n_samples",
    "BMI.Tables.benchmarkTable_name_clash",
    "BMI.Tables.maximum_spec",
    "BMI.Tables.converged_iff",
    "BMI.Tables.largest_converged_iff",
    "BMI.Tables.convergenceTable_spec",
    "BMI.Tables.convergenceTable_ignores_n_samples",
    "BMI.Tables.convergenceTable_fraction"
   ],
   "note": "The claim fails in the code: the filter on the number of samples is overwritten, so the argument is ignored (benchmarkTable_ignores_n_samples, convergenceTable_ignores_n_samples, counterexample benchmarkTable_mean_false). The partial theorem proves the claim when every result has the requested size."
  },
  {
   "property": "C51",
   "status": "proved",
   "theorems": [
    "BMI.Cca.estimate_spec",
    "BMI.Cca.estimate_perm",
    "BMI.Cca.estimate_canonical",
    "BMI.Cca.corr_eq",
    "BMI.Cca.miGauss_of_lt",
    "BMI.Cca.miGauss_of_eq",
    "BMI.Cca.corr_affine",
    "BMI.Cca.corr_two_points",
    "BMI.Cca.estimate_mismatch"
   ],
   "note": "scikit-learn's CCA is a parameter. estimate_canonical: whenever it returns canonical variables, the estimate is the mutual information of the normal law with the sample covariance."
  },
  {
   "property": "C52",
   "status": "proved",
   "theorems": [
    "BMI.Kde.create_spec",
    "BMI.Kde.create_refuses",
    "BMI.Kde.create_accepts_negative",
    "BMI.Kde.estimate_spec",
    "BMI.Kde.estimate_refuses",
    "BMI.Kde.estimate_perm",
    "BMI.Kde.estimate_swap",
    "BMI.Kde.estimate_shift",
    "BMI.Kde.estimate_affine",
    "BMI.Kde.entropy_bounds",
    "BMI.Kde.create_accepts_iff"
   ],
   "note": "scikit-learn's KernelDensity is modelled from its documentation with exact arithmetic; the normalising constants of the kernels are positive parameters. Numbers that no fit accepts as bandwidth pass construction (create_accepts_negative) and give a ValueError when estimating."
  },
  {
   "property": "C53",
   "status": "partial",
   "theorems": [
    "BMI.Critic.mlpInit_shapes",
    "BMI.Critic.mlp_accepts_iff_partial",
    "BMI.Critic.mlp_accepts_declared",
    "BMI.Critic.mlp_swapped_dimensions",
    "BMI.Critic.mlp_without_hidden_layers"
   ],
   "note": "Only the total length of the two points is checked: a critic for (dim_x, dim_y) accepts points of dimensions (dim_y, dim_x) (mlp_swapped_dimensions). Everything else is proved for all dimensions, hidden sizes and weights."
  },
  {
   "property": "C54",
   "status": "partial",
   "theorems": [
    "BMI.Search.bimodalCdf_spec",
    "BMI.Search.uniform_correct",
    "BMI.Search.bimodal_exact_correct",
    "BMI.Search.bimodal_marginal",
    "BMI.Search.bimodalTask_correct_partial",
    "BMI.Search.bimodalTask_overstates",
    "BMI.Search.bimodalTask_correct_iff"
   ],
   "note": "The claim is false for the code: the numerical inverse takes finitely many values, and for every correlation other than 0 the mutual information of the points is strictly smaller than the reported number (bimodalTask_overstates, bimodalTask_correct_iff). With exact inverse functions the reported number is exact (bimodal_exact_correct) and the marginals are the documented mixtures (bimodal_marginal)."
  },
  {
   "property": "C55",
   "status": "partial",
   "theorems": [
    "BMI.Student.moderate_df_is_finite_partial",
    "BMI.Student.large_df_is_nan",
    "BMI.CorrectionFigure.intermediate_df_is_infinite",
    "BMI.Student.Ext.arithmetic"
   ],
   "note": "False: for df >= 344 the gamma function overflows and the number is NaN, and just below it can be inf. Proved for 1 <= df and df + dim_x + dim_y <= 343."
  },
  {
   "property": "C56",
   "status": "partial",
   "theorems": [
    "BMI.Student.sample_shapes_partial",
    "BMI.Student.sample_one_point_fails"
   ],
   "note": "False for a single point: the array returned by SciPy is squeezed and the shape assertion fails. Proved for every other number of points."
  },
  {
   "property": "C57",
   "status": "proved",
   "theorems": [
    "BMI.Student.taskMultinormalDense_correct",
    "BMI.Student.taskMultinormalDense_accepts_iff",
    "BMI.Student.taskMultinormalLvm_correct",
    "BMI.Student.taskMultinormalLvm_accepts_iff",
    "BMI.Student.taskMultinormalSparse_correct",
    "BMI.Student.taskMultinormal2pair_correct",
    "BMI.Student.taskStudentIdentity_correct",
    "BMI.Student.taskStudentDense_correct",
    "BMI.Student.taskStudentDense_accepts_iff",
    "BMI.Student.taskStudentSparse_correct",
    "BMI.Student.taskStudent2pair_correct"
   ],
   "note": "Laws are those of the mathematical normal and Student-t vectors; the generators of JAX and SciPy are assumed to produce them (IdealRandom, IdealStudent). Real arithmetic. Student-t draws exclude n_points = 1 (see C56)."
  },
  {
   "property": "C58",
   "status": "proved",
   "theorems": [
    "BMI.Bmm.pmi_density",
    "BMI.Bmm.monteCarlo_estimate",
    "BMI.Bmm.gaussianMixture_estimate"
   ],
   "note": "jnp.std is the population standard deviation, whence the factor (n-1)/n. The semantics of TensorFlow Probability (Mixture, Blockwise, TransformedDistribution, linear-operator distributions) and of jnp.linalg.cholesky is assumed (Model/Bmm, IdealTfp). Real arithmetic."
  },
  {
   "property": "C59",
   "status": "proved",
   "theorems": [
    "BMI.Bmm.mixture_mi_le",
    "BMI.Bmm.mixture_of_products_mi_le"
   ],
   "note": "The semantics of TensorFlow Probability (Mixture, Blockwise, TransformedDistribution, linear-operator distributions) and of jnp.linalg.cholesky is assumed (Model/Bmm, IdealTfp). Real arithmetic."
  },
  {
   "property": "C60",
   "status": "partial",
   "theorems": [
    "BMI.Bmm.monteCarlo_negative",
    "BMI.Bmm.monteCarlo_nonneg_partial",
    "BMI.Chernoff.below_improbable",
    "BMI.Chernoff.negative_geometric"
   ],
   "note": "False: for every law of dependent variables with a positive density the estimate is negative with positive probability, whatever the number of points (monteCarlo_negative). What is true is that this probability is at most Var[pmi]/(n I^2). The semantics of TensorFlow Probability (Mixture, Blockwise, TransformedDistribution, linear-operator distributions) and of jnp.linalg.cholesky is assumed (Model/Bmm, IdealTfp). Real arithmetic."
  },
  {
   "property": "C61",
   "status": "proved",
   "theorems": [
    "BMI.Additive.single_layer_additive",
    "BMI.Additive.objectives_nonpos",
    "BMI.Additive.mineValue_nonpos",
    "BMI.NeuralEstimator.mine_additive_nonpos",
    "BMI.NeuralEstimator.estimate_additive_nonpos"
   ],
   "note": "Batches and test parts of at least two points for the three objectives (smaller ones give NaN)."
  },
  {
   "property": "C62",
   "status": "proved",
   "theorems": [
    "BMI.NeuralEstimator.mine_estimate_total",
    "BMI.NeuralEstimator.estimate_history_independent",
    "BMI.NeuralEstimator.mine_history_independent",
    "BMI.NeuralEstimator.estimate_keeps_params",
    "BMI.NeuralEstimator.estimate_zero_period",
    "BMI.NeuralEstimator.estimate_refuses",
    "BMI.NeuralEstimator.mkMine_accepts_iff",
    "BMI.NeuralEstimator.mk_accepts_iff",
    "BMI.NeuralEstimator.keeps_params"
   ],
   "note": "The statement is about MINE. The other estimators accept test_every_n_steps=0 and split fractions outside (0, 1), and then raise during estimation (estimate_zero_period, estimate_refuses)."
  },
  {
   "property": "C63",
   "status": "proved",
   "theorems": [
    "BMI.MixtureTasks.taskX_correct",
    "BMI.MixtureTasks.taskAi_correct",
    "BMI.MixtureTasks.taskGalaxy_correct",
    "BMI.MixtureTasks.taskWaves_correct",
    "BMI.MixtureTasks.taskConcentric_correct",
    "BMI.MixtureTasks.taskInliers_correct",
    "BMI.MixtureTasks.taskX_accepts_iff",
    "BMI.MixtureTasks.taskAi_accepts_iff",
    "BMI.MixtureTasks.taskGalaxy_accepts_iff",
    "BMI.MixtureTasks.taskWaves_accepts_iff",
    "BMI.MixtureTasks.taskConcentric_accepts_iff",
    "BMI.MixtureTasks.taskInliers_accepts_iff",
    "BMI.MixtureTasks.lawX_mi_zero_iff",
    "BMI.MixtureTasks.lawAi_mi_pos",
    "BMI.MixtureTasks.lawGalaxy_mi_zero_iff",
    "BMI.MixtureTasks.lawWaves_mi_zero_iff",
    "BMI.MixtureTasks.lawConcentric_mi_zero_iff",
    "BMI.MixtureTasks.lawInliers_mi_zero_iff"
   ],
   "note": "Over real numbers and an ideal source of randomness (IdealTfp); the mean of the reported number is over keys in the place of the fixed seed."
  },
  {
   "property": "C64",
   "status": "proved",
   "theorems": [
    "BMI.Scaling.rescale_spec",
    "BMI.Scaling.rescale_order",
    "BMI.Scaling.rescale_affine",
    "BMI.Scaling.rescale_empty",
    "BMI.Scaling.uniformise_spec",
    "BMI.Scaling.uniformise_affine",
    "BMI.Scaling.uniformise_rescale",
    "BMI.Scaling.uniformise_one_quantile",
    "BMI.Scaling.gaussianise_monotone",
    "BMI.Scaling.gaussianise_collapses",
    "BMI.Scaling.uniformise_large_collapses",
    "BMI.Scaling.quantileTransform_ok_iff",
    "BMI.Scaling.rescale_task",
    "BMI.Scaling.quantile_task",
    "BMI.Scaling.merge_lookup",
    "BMI.Scaling.merge_merge_lookup",
    "BMI.Scaling.scaleTasks_spec",
    "BMI.Scaling.uniformise_rank",
    "BMI.Scaling.quantiles_all"
   ],
   "note": "scikit-learn's scale and quantile_transform are modelled from their documented behaviour; real arithmetic, finite values. Order and ties are kept by uniformising for at least two quantiles and samples below scikit-learn's subsampling limit; what happens otherwise is proved (uniformise_one_quantile, uniformise_large_collapses), as is the merging of values within 1e-7 of the extremes by gaussianising."
  },
  {
   "property": "C65",
   "status": "proved",
   "theorems": [
    "BMI.Bmm.normal_profile",
    "BMI.Bmm.bilinearLaw_symm",
    "BMI.Bmm.bilinearLaw_moments",
    "BMI.Bmm.bilinearLaw_diagonal",
    "BMI.Bmm.canonical_profile",
    "BMI.Bmm.script_profile"
   ],
   "note": "Any square roots of the covariance blocks may be used for the whitening. Randomness of TensorFlow Probability as in IdealTfp; real arithmetic. The plotting in the script is not modelled."
  },
  {
   "property": "C66",
   "status": "proved",
   "theorems": [
    "BMI.Workflow.results_spec",
    "BMI.Workflow.results_length",
    "BMI.Workflow.results_nodup",
    "BMI.Workflow.job_spec",
    "BMI.Workflow.negative_seed_fails",
    "BMI.Workflow.slash_misattributed",
    "BMI.Workflow.same_id_last_wins",
    "BMI.Workflow.callId_name",
    "BMI.Workflow.setups_usable",
    "BMI.Workflow.pyInt_intStr",
    "BMI.Workflow.sampleTask_outcome",
    "BMI.Workflow.applyEstimator_fails",
    "BMI.Workflow.results_without_ids",
    "BMI.Workflow.setups_spirals"
   ],
   "note": "Snakemake is assumed to match output patterns with greedy wildcards and to run each job once; files of earlier runs, memory limits and cluster settings are not modelled. YAML is a parameter here (see C45 for the dumper)."
  },
  {
   "property": "C67",
   "status": "proved",
   "theorems": [
    "BMI.FigureTables.nSamplesNeeded_spec",
    "BMI.FigureTables.isSolved_single",
    "BMI.FigureTables.isSolved_meanError",
    "BMI.FigureTables.neuralFail_iff",
    "BMI.FigureTables.not_neural_kept",
    "BMI.FigureTables.largest_kept",
    "BMI.FigureTables.makeTable_keys",
    "BMI.FigureTables.makeTable_unnamed",
    "BMI.FigureTables.samplesTable_spec",
    "BMI.FigureTables.miTable_spec",
    "BMI.FigureTables.miTable_missing",
    "BMI.FigureTables.failsTable_spec",
    "BMI.FigureTables.good_ignores",
    "BMI.FigureTables.independent_never_solved",
    "BMI.FigureTables.meanError_spec"
   ],
   "note": "Colours, heat maps and infinite estimates are not modelled; pandas grouping, pivoting and means are definitions of the model."
  },
  {
   "property": "C68",
   "status": "proved",
   "theorems": [
    "BMI.ReadResults.readRow_get",
    "BMI.ReadResults.readResults_rows",
    "BMI.ReadResults.collision_replaces",
    "BMI.ReadResults.params_names",
    "BMI.ReadResults.params_disjoint",
    "BMI.ReadResults.shipped_survive",
    "BMI.ReadResults.params_overwritten",
    "BMI.ReadResults.belowMax_spec",
    "BMI.ReadResults.belowMax_empty",
    "BMI.ReadResults.shownStd_spec",
    "BMI.ReadResults.paperNames_complete",
    "BMI.ReadResults.paperTable_spec",
    "BMI.ReadResults.paperEntries_ignores_size",
    "BMI.ReadResults.readRow_info",
    "BMI.ReadResults.readRow_missing"
   ],
   "note": "YAML is a parameter; printing of numbers is not modelled. The statement includes two disagreements with what a reader of the table expects."
  },
  {
   "property": "C69",
   "status": "proved",
   "theorems": [
    "BMI.Sparsity.lvm_full",
    "BMI.Sparsity.lvm_empty",
    "BMI.Sparsity.lvm_sparse",
    "BMI.Sparsity.getInitialAlpha_spec",
    "BMI.Sparsity.getLambdaTask_spec",
    "BMI.Sparsity.getNInteractingTask_spec",
    "BMI.Sparsity.figure_alpha",
    "BMI.Sparsity.figure_tasks",
    "BMI.Sparsity.figure_ids",
    "BMI.Sparsity.shown_covariance",
    "BMI.Sparsity.refused",
    "BMI.Sparsity.strength_decreases",
    "BMI.Sparsity.paramsToLvm_missing"
   ],
   "note": "In real arithmetic with ideal random numbers; within 1e-9 of the two limits of the search the outcome is left open."
  },
  {
   "property": "C70",
   "status": "proved",
   "theorems": [
    "BMI.Outliers.signal_correct",
    "BMI.Outliers.mixture_correct",
    "BMI.Outliers.contamination_mono",
    "BMI.Outliers.variances_spec",
    "BMI.Outliers.mixingTasks_spec",
    "BMI.Outliers.varianceTasks_spec",
    "BMI.Outliers.unscaledTasks_spec",
    "BMI.Outliers.panels_spec",
    "BMI.Outliers.varianceLine_spec",
    "BMI.Outliers.groundTruth_spec"
   ],
   "note": "Over any ideal source of randomness (IdealTfp) in real arithmetic; the printing and reading of the numbers in file names is a parameter that has to read back the levels and variances used. The rescaled copies of the tasks, the rules running estimators and the drawing are not modelled here (the rescaling and the benchmark rules are C64 and C66)."
  },
  {
   "property": "C71",
   "status": "proved",
   "theorems": [
    "BMI.Integration.integrates",
    "BMI.Integration.experiment",
    "BMI.Integration.ground_truth",
    "BMI.Integration.unbiased_critic",
    "BMI.Integration.constant_bias",
    "BMI.Integration.functional_bias",
    "BMI.Integration.high_dimension",
    "BMI.Integration.files"
   ],
   "note": "Over any ideal source of randomness (IdealTfp) in real arithmetic. integrates holds for every law with an integrable pointwise mutual information and every bounded measurable bias. Means and standard deviations drawn in the plots are not modelled."
  },
  {
   "property": "C72",
   "status": "partial",
   "theorems": [
    "BMI.Profiles.asWritten_fails",
    "BMI.Profiles.inOrder_eq",
    "BMI.Profiles.figure_fails",
    "BMI.Profiles.plot_fails",
    "BMI.Profiles.normal_partial",
    "BMI.Profiles.uShape_partial",
    "BMI.Profiles.profile_mean",
    "BMI.Profiles.figure_partial",
    "BMI.Profiles.plot_partial"
   ],
   "note": "False for the code: both workflows pass the arguments of sample in the wrong order, and it is proved that no figure is ever made (figure_fails, plot_fails). The theorems ending in _partial prove the claim for the same workflows with the arguments in order; there, carrying over with the numerical inverse functions strictly loses mutual information. Over any ideal source of randomness (IdealTfp) in real arithmetic."
  },
  {
   "property": "C73",
   "status": "proved",
   "theorems": [
    "BMI.Gallery.gallery_spec",
    "BMI.Gallery.informations",
    "BMI.Gallery.normal_numbers",
    "BMI.Gallery.bent_profile",
    "BMI.Gallery.dispersion_eq",
    "BMI.Gallery.sigmoid_diffeo",
    "BMI.Gallery.isProfile_map"
   ],
   "note": "Assumes draws follow the laws of the distributions (IdealTfp); the random source is arbitrary. The average without NaNs in the title is left out."
  },
  {
   "property": "C74",
   "status": "proved",
   "theorems": [
    "BMI.GmmBenchmark.tasks_named",
    "BMI.GmmBenchmark.summary_spec",
    "BMI.GmmBenchmark.interval_covers",
    "BMI.GmmBenchmark.results_spec",
    "BMI.GmmBenchmark.table_spec",
    "BMI.GmmBenchmark.table_unknown",
    "BMI.GmmBenchmark.benchmark_table",
    "BMI.GmmBenchmark.seeds_runs"
   ],
   "note": "The posterior of the estimator is a parameter (a list of floats, NaN and infinite ones included). Sums and percentiles in real arithmetic. Estimator names contain no line break, seeds are not negative."
  },
  {
   "property": "C75",
   "status": "proved",
   "theorems": [
    "BMI.Discrete.define_spec",
    "BMI.Discrete.example_mi",
    "BMI.Discrete.example_snd",
    "BMI.Discrete.estimate_spec",
    "BMI.Discrete.profile_spec",
    "BMI.Discrete.points_spec",
    "BMI.Discrete.bit_mixture_le"
   ],
   "note": "Random numbers of TensorFlow Probability and uniform numbers drawn from the right laws (IdealTfp, IdealUniform; both hold for the witness in Lemmas/DiscreteWitness.lean). Real arithmetic."
  },
  {
   "property": "C76",
   "status": "proved",
   "theorems": [
    "BMI.Fitting.exampleX",
    "BMI.Fitting.exampleGalaxy",
    "BMI.Fitting.exampleAi",
    "BMI.Fitting.exampleWaves",
    "BMI.Fitting.on_axis",
    "BMI.Fitting.distributions_ok",
    "BMI.Fitting.figures",
    "BMI.Fitting.wanted_figures",
    "BMI.Fitting.figure_unknown",
    "BMI.Fitting.approx_counts_back",
    "BMI.Fitting.outputs_separate"
   ],
   "note": "Draws follow the laws of the distributions (IdealTfp); the sampler of NumPyro is a parameter which returns 800 samples in the support of the prior. Histograms and the axis of the profiles are left out."
  },
  {
   "property": "C77",
   "status": "proved",
   "theorems": [
    "BMI.Neural.nwj_optimal",
    "BMI.Neural.donskerVaradhan_optimal",
    "BMI.Neural.donskerVaradhan_batch",
    "BMI.Neural.donskerVaradhan_overshoots",
    "BMI.Neural.infonce_optimal",
    "BMI.Neural.infonce_lt_mi",
    "BMI.Neural.continuous_optimal"
   ],
   "note": "Exact real arithmetic; integrability of the critic (and of its exponential for NWJ and Donsker-Varadhan) and measurability are hypotheses. Batches are independent draws of the joint law."
  },
  {
   "property": "C78",
   "status": "proved",
   "theorems": [
    "BMI.CriticPlots.notebook_spec",
    "BMI.CriticPlots.figure_compares",
    "BMI.CriticPlots.trained",
    "BMI.CriticPlots.panels_iff",
    "BMI.CriticPlots.best_critics",
    "BMI.CriticPlots.balls_pmi",
    "BMI.CriticPlots.node_pixel",
    "BMI.CriticPlots.critic_image"
   ],
   "note": "Numbers are real; tfp objects and the neural library satisfy the assumptions of the trusted base; what matplotlib draws from arrays, bins and colours is outside the model."
  },
  {
   "property": "C79",
   "status": "partial",
   "theorems": [
    "BMI.CompareFigure.figure_spec_partial",
    "BMI.CompareFigure.benchmarks_figure_partial",
    "BMI.CompareFigure.figure_raises",
    "BMI.CompareFigure.skewed",
    "BMI.CompareFigure.figure_missing",
    "BMI.CompareFigure.getY_spec",
    "BMI.CompareFigure.strips_disjoint",
    "BMI.CompareFigure.ids_present",
    "BMI.CompareFigure.constant_interval",
    "BMI.CompareFigure.normal_on_axis",
    "BMI.CompareFigure.yScaler_spec",
    "BMI.CompareFigure.meanOf_missing"
   ],
   "note": "False for intervals that do not contain their mean (skewed); proved for all others. Numbers are real."
  },
  {
   "property": "C80",
   "status": "proved",
   "theorems": [
    "BMI.ChiCheck.plotSamples_spec",
    "BMI.ChiCheck.plotSamples_rejects",
    "BMI.ChiCheck.line_is_information",
    "BMI.ChiCheck.main_spec"
   ],
   "note": "jax.random.split and normal draw independent keys and standard normal numbers (trusted base); real arithmetic; a non-empty list of correlations."
  },
  {
   "property": "C81",
   "status": "proved",
   "theorems": [
    "BMI.Appearing.main_spec",
    "BMI.Appearing.mixtures",
    "BMI.Appearing.diagonal_mi",
    "BMI.Appearing.pixel_inside",
    "BMI.Appearing.pixel_border"
   ],
   "note": "Grid points as real numbers; pixels as matplotlib places them for the extent [0, 2]."
  },
  {
   "property": "C82",
   "status": "proved",
   "theorems": [
    "BMI.MiFigure.plotMi_spec",
    "BMI.MiFigure.plotMi_rejects",
    "BMI.MiFigure.band_around",
    "BMI.MiFigure.spiralPlane_correct",
    "BMI.MiFigure.panel_spec",
    "BMI.MiFigure.panel_places",
    "BMI.MiFigure.panel_truth",
    "BMI.MiFigure.findSpeed_iff",
    "BMI.MiFigure.spiral_figure",
    "BMI.MiFigure.exponents_spec",
    "BMI.MiFigure.degrees_spec",
    "BMI.MiFigure.tailNormal_correct",
    "BMI.MiFigure.tailStudent_correct",
    "BMI.MiFigure.tail_figure",
    "BMI.MiFigure.plotSpiral_spec",
    "BMI.Concept.spiral_identifiers",
    "BMI.MiFigure.palette"
   ],
   "note": "Numbers handed to matplotlib; float arithmetic as real arithmetic. The tasks are any tasks with the identifiers and parameters of the lists and the mutual information of the modelled constructors."
  },
  {
   "property": "C83",
   "status": "proved",
   "theorems": [
    "BMI.Chernoff.below_improbable",
    "BMI.Chernoff.negative_improbable",
    "BMI.Chernoff.negative_geometric",
    "BMI.Chernoff.examples_positive"
   ],
   "note": "Tail bounds by exponential moments: the mean of exp(-pmi) under the law is at most one, that of exp(-pmi/2) is the affinity of the law and the product of its marginals. Test functions for the four examples are sines and cosines."
  },
  {
   "property": "C84",
   "status": "proved",
   "theorems": [
    "BMI.CoolTasks.cool_tasks",
    "BMI.CoolTasks.plotDistributions_spec",
    "BMI.CoolTasks.workflow_spec",
    "BMI.CoolTasks.load_size",
    "BMI.CoolTasks.plotResults_unknown"
   ],
   "note": "If one of the numbers is negative, loading raises; the probability bound is that of C83. Estimators are parameters."
  },
  {
   "property": "C85",
   "status": "proved",
   "theorems": [
    "BMI.CorrectionFigure.correction_is_mi",
    "BMI.CorrectionFigure.correction_symm",
    "BMI.CorrectionFigure.correction_decreasing",
    "BMI.CorrectionFigure.correction_add",
    "BMI.CorrectionFigure.correction_dims",
    "BMI.CorrectionFigure.correction_rate",
    "BMI.CorrectionFigure.student_mi_decreasing",
    "BMI.CorrectionFigure.figure_spec"
   ],
   "note": "The function in exact arithmetic; the figure with floats that overflow in the gamma function."
  },
  {
   "property": "C86",
   "status": "partial",
   "theorems": [
    "BMI.Concept.main11_partial",
    "BMI.Concept.main21_partial",
    "BMI.Concept.fixed_of",
    "BMI.Concept.stairs_strictMono",
    "BMI.Scripts.concept_fails"
   ],
   "note": "False as it stands: both programs import bmi.api, which does not exist, and raise ImportError (concept_fails). Proved for main once the imports succeed. Formatting rounds ties up; limits and ticks are not modelled."
  },
  {
   "property": "C87",
   "status": "partial",
   "theorems": [
    "BMI.Concept.experiment_partial",
    "BMI.Concept.experiment_one",
    "BMI.Concept.createBaseSampler_iff",
    "BMI.Scripts.spiral_fails"
   ],
   "note": "False as it stands: the program imports bmi.api, which does not exist, and raises ImportError (spiral_fails). Proved for main once the imports succeed. The estimator is a parameter."
  },
  {
   "property": "C88",
   "status": "proved",
   "theorems": [
    "BMI.HighMi.high_mi",
    "BMI.HighMi.tasks_spec",
    "BMI.HighMi.taskList_spec",
    "BMI.HighMi.config_ready",
    "BMI.HighMi.high_mi_runs"
   ],
   "note": "Exact arithmetic; formatting rounds ties up."
  },
  {
   "property": "C89",
   "status": "partial",
   "theorems": [
    "BMI.PmiFigure.figure_spec",
    "BMI.PmiFigure.titles",
    "BMI.PmiFigure.student_logpdfratio",
    "BMI.PmiFigure.gaussian_logpdfratio",
    "BMI.PmiFigure.normalPoints_law",
    "BMI.PmiFigure.studentPoints_law",
    "BMI.PmiFigure.trained",
    "BMI.PmiFigure.normal_agree_iff",
    "BMI.PmiFigure.student_agree_iff",
    "BMI.PmiFigure.normal_disagree",
    "BMI.PmiFigure.student_disagree"
   ],
   "note": "Everything but the last sentence is proved; its negation is proved with probability one, for all six columns. The critic of the figure is trained in standardised coordinates."
  },
  {
   "property": "C90",
   "status": "partial",
   "theorems": [
    "BMI.Registry.build_honest",
    "BMI.Registry.benchmark_tasks_partial",
    "BMI.Registry.bimodal_overstates",
    "BMI.Registry.entries_facts",
    "BMI.Registry.honest_sample",
    "BMI.Registry.base_names",
    "BMI.Registry.transformed_names",
    "BMI.Registry.entry_dims"
   ],
   "note": "Proved for 39 of the 40 tasks and for all towers of transforms over the base tasks; the negation is proved for the bimodal task."
  },
  {
   "property": "C91",
   "status": "partial",
   "theorems": [
    "BMI.Paper.tasks_ready",
    "BMI.Paper.toNd_rows",
    "BMI.Paper.workflows_sound",
    "BMI.Paper.names_distinct",
    "BMI.Paper.estimates_figure",
    "BMI.Paper.estimates_figure_missing",
    "BMI.Paper.estimates_figure_made",
    "BMI.Paper.estimates_figure_iff",
    "BMI.Paper.failures_figure",
    "BMI.Paper.failures_all_iff",
    "BMI.Paper.samples_figure",
    "BMI.Paper.usable_nil_iff",
    "BMI.Paper.full_workflows",
    "BMI.Paper.chosen_workflows",
    "BMI.Paper.arch_workflow_partial",
    "BMI.Paper.arch_workflow_fails",
    "BMI.Paper.key_ambiguous",
    "BMI.Paper.keys_agree_partial",
    "BMI.Paper.tasks_shown",
    "BMI.Paper.frame_rows"
   ],
   "note": "Proved except for two points where the code violates the claim: one ambiguous key of an estimator, and the figure of estimates of neural_arch when all runs on a task are negative; negations proved."
  },
  {
   "property": "C92",
   "status": "proved",
   "theorems": [
    "BMI.SamplerFigure.figure",
    "BMI.SamplerFigure.shades_mono",
    "BMI.SamplerFigure.shades_strict",
    "BMI.SamplerFigure.heights_are_shades",
    "BMI.SamplerFigure.points_apart"
   ],
   "note": ""
  },
  {
   "property": "C93",
   "status": "proved",
   "theorems": [
    "BMI.SparsityFigure.sparsity",
    "BMI.SparsityFigure.tasks_spec",
    "BMI.SparsityFigure.matrices"
   ],
   "note": ""
  },
  {
   "property": "C94",
   "status": "proved",
   "theorems": [
    "BMI.NeuralEstimator.mkNamed_spec",
    "BMI.NeuralEstimator.named_value",
    "BMI.NeuralEstimator.infonce_ceiling",
    "BMI.NeuralEstimator.constant_nonpos",
    "BMI.NeuralEstimator.mine_constant_nonpos",
    "BMI.NeuralEstimator.units",
    "BMI.NeuralEstimator.mine_units",
    "BMI.NeuralEstimator.backend_irrelevant",
    "BMI.NeuralEstimator.names_tell"
   ],
   "note": ""
  },
  {
   "property": "C95",
   "status": "partial",
   "theorems": [
    "BMI.AddNoise.addNoise_spec",
    "BMI.AddNoise.entries_normal",
    "BMI.AddNoise.no_ties",
    "BMI.AddNoise.fresh_noise_partial",
    "BMI.AddNoise.shared_noise",
    "BMI.AddNoise.shared_noise_infinite",
    "BMI.AddNoise.shared_noise_constants"
   ],
   "note": "The last sentence is proved for noise from generators with independent states and is false if the same key is used for both variables, as by default: discrete variables then get infinite mutual information."
  },
  {
   "property": "C96",
   "status": "proved",
   "theorems": [
    "BMI.Wrapper.wrapped_run",
    "BMI.Wrapper.wrapped_estimate",
    "BMI.Wrapper.wrapped_params"
   ],
   "note": ""
  },
  {
   "property": "C97",
   "status": "proved",
   "theorems": [
    "BMI.AddNoise.finite_of_distinct",
    "BMI.AddNoise.ksg_finite",
    "BMI.AddNoise.ksg_needs_noise"
   ],
   "note": ""
  },
  {
   "property": "C98",
   "status": "proved",
   "theorems": [
    "BMI.Consistency.cca_converges",
    "BMI.Consistency.cca_consistent",
    "BMI.Consistency.cca_student",
    "BMI.Consistency.exists_canonicalFit"
   ],
   "note": "Assumes that the fit of scikit-learn returns canonical variables."
  },
  {
   "property": "C99",
   "status": "proved",
   "theorems": [
    "BMI.Bmm.monteCarlo_converges",
    "BMI.Bmm.monteCarlo_diverges",
    "BMI.Bmm.error_bars",
    "BMI.Bmm.error_bars_zero",
    "BMI.Bmm.variance_zero_iff",
    "BMI.Bmm.gaussianMixture_error_bars"
   ],
   "note": ""
  }
 ]
}
