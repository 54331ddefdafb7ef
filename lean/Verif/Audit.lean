import Verif.Props.AddNoise
import Verif.Props.AdditiveCritic
import Verif.Props.AdditiveUniform
import Verif.Props.Appearing
import Verif.Props.BatchLimit
import Verif.Props.Batches
import Verif.Props.Bimodal
import Verif.Props.BimodalStrict
import Verif.Props.Bmm
import Verif.Props.BmmMixtureMI
import Verif.Props.BmmPmi
import Verif.Props.BmmSampler
import Verif.Props.BmmTransform
import Verif.Props.Cca
import Verif.Props.CcaConsistent
import Verif.Props.CcaMixture
import Verif.Props.CcaRank
import Verif.Props.CcaStrict
import Verif.Props.CcaTasks
import Verif.Props.Chernoff
import Verif.Props.ChiCheck
import Verif.Props.Chunker
import Verif.Props.CompareFigure
import Verif.Props.Compose
import Verif.Props.Concept
import Verif.Props.CoolTasks
import Verif.Props.CorrectionFigure
import Verif.Props.Covariance
import Verif.Props.Critic
import Verif.Props.CriticPlots
import Verif.Props.CriticRich
import Verif.Props.Details
import Verif.Props.Discrete
import Verif.Props.DiscreteMixture
import Verif.Props.Dumper
import Verif.Props.External
import Verif.Props.FigureTables
import Verif.Props.Finer
import Verif.Props.Fitting
import Verif.Props.FunctionWrapper
import Verif.Props.Gallery
import Verif.Props.Gmm
import Verif.Props.GmmBenchmark
import Verif.Props.HighMi
import Verif.Props.Histogram
import Verif.Props.HistogramBounded
import Verif.Props.HistogramFine
import Verif.Props.HistogramLimit
import Verif.Props.Integration
import Verif.Props.InvertCdf
import Verif.Props.KSG
import Verif.Props.Kde
import Verif.Props.KdeBenchmark
import Verif.Props.KdeLimit
import Verif.Props.KdeMixture
import Verif.Props.KdeNormal
import Verif.Props.KdeRule
import Verif.Props.KdeStandard
import Verif.Props.KdeTasks
import Verif.Props.LVM
import Verif.Props.Losses
import Verif.Props.MatrixUtils
import Verif.Props.MiFigure
import Verif.Props.Mine
import Verif.Props.MixtureTasks
import Verif.Props.MixtureTasksMI
import Verif.Props.MixtureTasksRefuse
import Verif.Props.MonteCarloLimit
import Verif.Props.Multinormal
import Verif.Props.NeuralEstimator
import Verif.Props.NeuralNamed
import Verif.Props.NoisyKsg
import Verif.Props.NormalTasks
import Verif.Props.OptimalCritic
import Verif.Props.Outliers
import Verif.Props.PaperBenchmark
import Verif.Props.PaperSetups
import Verif.Props.PaperTasks
import Verif.Props.PmiFigure
import Verif.Props.PmiProfile
import Verif.Props.ProductSpace
import Verif.Props.Profiles
import Verif.Props.ProfilesPlot
import Verif.Props.ReadResults
import Verif.Props.Registry
import Verif.Props.RunEstimator
import Verif.Props.SampleIO
import Verif.Props.SamplerFigure
import Verif.Props.SamplerShapes
import Verif.Props.Scaling
import Verif.Props.Scripts
import Verif.Props.Search
import Verif.Props.SearchTasks
import Verif.Props.Sparsity
import Verif.Props.SparsityFigure
import Verif.Props.Spiral
import Verif.Props.Student
import Verif.Props.Subplots
import Verif.Props.Tables
import Verif.Props.Task
import Verif.Props.TaskIds
import Verif.Props.Timer
import Verif.Props.Training
import Verif.Props.Transforms
import Verif.Props.Workflow
import Verif.Props.ZeroInflated

/-! Axioms used by every theorem listed in MANIFEST.json; the build log shows them.
Each must be among `propext`, `Classical.choice`, `Quot.sound`. -/

#print axioms BMI.Samplers.splitMultinormal_correct
#print axioms BMI.Samplers.bivariateNormal_correct
#print axioms BMI.Samplers.splitMultinormal_default_mean
#print axioms BMI.Samplers.bivariateNormal_rejects
#print axioms BMI.Samplers.multinormal_nonneg_before_clamp
#print axioms BMI.Samplers.multinormal_zero_iff
#print axioms BMI.Samplers.multinormal_mean_irrelevant
#print axioms BMI.Samplers.multinormal_swap
#print axioms BMI.Samplers.actOn_mulVec
#print axioms BMI.Samplers.multinormal_linear
#print axioms BMI.Samplers.bivariate_eq_split
#print axioms BMI.Samplers.splitMultinormal_accepts_iff_partial
#print axioms BMI.Samplers.splitMultinormal_accepts_asymmetric
#print axioms BMI.Samplers.canBeCovariance_ignores_symmetry
#print axioms BMI.Samplers.additiveUniform_correct
#print axioms BMI.Samplers.additiveUniform_rejects
#print axioms BMI.Samplers.discreteUniformMixture_correct
#print axioms BMI.Samplers.discreteUniformMixture_rejects
#print axioms BMI.Samplers.multivariateDiscreteUniformMixture_correct
#print axioms BMI.Samplers.multivariateDiscreteUniformMixture_rejects
#print axioms BMI.Samplers.zeroInflatedPoisson_law
#print axioms BMI.Samplers.zeroInflatedPoissonMI_converges
#print axioms BMI.Samplers.zeroInflatedPoissonMI_rejects
#print axioms BMI.Samplers.zeroInflatedPoisson_exact_partial
#print axioms BMI.Samplers.zeroInflatedPoisson_overreports
#print axioms BMI.Samplers.transformed_correct
#print axioms BMI.Samplers.transformed_upper_bound
#print axioms BMI.Samplers.transformed_rejects
#print axioms BMI.Samplers.concatenation_correct
#print axioms BMI.Samplers.concatenation_nil
#print axioms BMI.Samplers.halfCube_injective
#print axioms BMI.Samplers.wiggly_strictMono
#print axioms BMI.Samplers.normalCdf_spec
#print axioms BMI.Samplers.normalCdf_uniform
#print axioms BMI.Samplers.power_injective_iff
#print axioms BMI.Samplers.swissroll_injective
#print axioms BMI.Samplers.swissroll_not_injective
#print axioms BMI.Samplers.waves_injective
#print axioms BMI.Samplers.halfCubeTask_correct
#print axioms BMI.Samplers.asinhTask_correct
#print axioms BMI.Samplers.wigglyTask_correct
#print axioms BMI.Samplers.normalCdfTask_correct
#print axioms BMI.Samplers.powerTask_correct
#print axioms BMI.Samplers.powerTask_correct_neg
#print axioms BMI.Samplers.swissrollTask_correct
#print axioms BMI.Samplers.swissrollTask_rejects
#print axioms BMI.Samplers.spiralTask_correct
#print axioms BMI.Samplers.spiralTask_rejects
#print axioms BMI.Samplers.rotateTask_correct
#print axioms BMI.Samplers.rotateTask_rejects
#print axioms BMI.Samplers.galaxy_correct
#print axioms BMI.Samplers.waves_correct
#print axioms BMI.Samplers.spiral_accepts_iff
#print axioms BMI.Samplers.spiral_norm
#print axioms BMI.Samplers.spiral_bijective
#print axioms BMI.Samplers.spiral_undo
#print axioms BMI.Samplers.spiral_undo_plain
#print axioms BMI.Samplers.spiral_turns
#print axioms BMI.Samplers.soGenerator_spec
#print axioms BMI.Samplers.skewSymmetrize_spec
#print axioms BMI.Student.splitStudentT_correct
#print axioms BMI.Student.splitStudentT_decomposes
#print axioms BMI.Student.splitStudentT_covariance
#print axioms BMI.Student.splitStudentT_accepts_iff
#print axioms BMI.Student.student_tends_to_gaussian_partial
#print axioms BMI.Student.infinite_df_is_nan
#print axioms BMI.MatrixUtils.canonicalCorrelation_spec
#print axioms BMI.MatrixUtils.canonicalCorrelation_rejects
#print axioms BMI.MatrixUtils.canonical_posDef_iff
#print axioms BMI.MatrixUtils.canonical_number
#print axioms BMI.MatrixUtils.parametrisedCorrelationMatrix_spec
#print axioms BMI.MatrixUtils.parametrisedCorrelationMatrix_rejects
#print axioms BMI.MatrixUtils.parametrised_not_covariance
#print axioms BMI.MatrixUtils.gaussianLVM_spec
#print axioms BMI.MatrixUtils.covariance_eq_mixing
#print axioms BMI.MatrixUtils.nLatent_eq
#print axioms BMI.MatrixUtils.covariance_posDef
#print axioms BMI.MatrixUtils.correlation_spec
#print axioms BMI.MatrixUtils.dense_correlation
#print axioms BMI.MatrixUtils.sparse_correlation
#print axioms BMI.MatrixUtils.sparse_variance
#print axioms BMI.Samplers.transformed_wellShaped
#print axioms BMI.Samplers.concatenation_wellShaped
#print axioms BMI.Samplers.splitMultinormal_wellShaped
#print axioms BMI.Samplers.bivariateNormal_wellShaped
#print axioms BMI.Samplers.additiveUniform_wellShaped
#print axioms BMI.Samplers.discreteUniformMixture_wellShaped
#print axioms BMI.Samplers.zeroInflatedPoisson_no_dims
#print axioms BMI.Bmm.bmmSampler_sample
#print axioms BMI.Student.sample_shapes_partial
#print axioms BMI.Samplers.built_seedsAreKeys
#print axioms BMI.Samplers.transformed_sample
#print axioms BMI.Bmm.bmmSampler_seedsAreKeys
#print axioms BMI.Search.invertMono_terminates
#print axioms BMI.Search.invertMono_bracket
#print axioms BMI.Search.invertMono_terminates_real
#print axioms BMI.Search.invertMono_real_bracket
#print axioms BMI.Search.invertMono_accurate
#print axioms BMI.Search.invertMono_solves
#print axioms BMI.Search.invertMono_saturates
#print axioms BMI.Search.invertMono_eq_iterate
#print axioms BMI.Search.invertMono_mono
#print axioms BMI.Search.invertMono_finite
#print axioms BMI.Search.invertCdf_steps
#print axioms BMI.Search.invertCdf_accurate
#print axioms BMI.Search.binsearch_sound
#print axioms BMI.Search.binsearch_calls
#print axioms BMI.Search.binsearch_raises
#print axioms BMI.Search.binsearch_unsound
#print axioms BMI.Search.binsearch_finds
#print axioms BMI.Search.binsearch_finds_continuous
#print axioms BMI.Search.getSparseGaussianSampler_correct
#print axioms BMI.Search.getSparseGaussianSampler_rejects
#print axioms BMI.Search.generateSparseGaussianTask_correct
#print axioms BMI.Search.generateSparseGaussianTask_exists
#print axioms BMI.Search.generateSparseGaussianTask_none
#print axioms BMI.Search.generateSpiralTask_correct
#print axioms BMI.Search.generateHalfCubeTask_correct
#print axioms BMI.Bmm.mixture_accepts_iff
#print axioms BMI.Bmm.mixture_consistent
#print axioms BMI.Bmm.multivariateNormal_consistent
#print axioms BMI.Bmm.multivariateStudent_consistent
#print axioms BMI.Bmm.transform_pmiAt
#print axioms BMI.Bmm.transform_pmiAt_default
#print axioms BMI.Bmm.transform_estimate
#print axioms BMI.Bmm.transform_consistent
#print axioms BMI.Bmm.product_pmiAt
#print axioms BMI.Bmm.product_accepts_iff
#print axioms BMI.Bmm.product_consistent
#print axioms BMI.Bmm.bmmSampler_supplied
#print axioms BMI.Bmm.bmmSampler_estimated
#print axioms BMI.Bmm.bmmSampler_accepts_iff
#print axioms BMI.KSG.fast_eq_slow_partial
#print axioms BMI.KSG.fast_ne_slow_of_repeated
#print axioms BMI.KSG.fit_perm
#print axioms BMI.KSG.fit_swap
#print axioms BMI.KSG.fit_similarity
#print axioms BMI.KSG.fit_rescale
#print axioms BMI.KSG.fit_affine
#print axioms BMI.KSG.prediction_nonneg
#print axioms BMI.KSG.prediction_le
#print axioms BMI.KSG.prediction_infinite_iff_partial
#print axioms BMI.KSG.prediction_can_be_infinite
#print axioms BMI.KSG.mkParams_spec
#print axioms BMI.KSG.fit_too_few
#print axioms BMI.KSG.fit_enough
#print axioms BMI.KSG.fit_keys
#print axioms BMI.KSG.predictions_history
#print axioms BMI.KSG.estimate_mean
#print axioms BMI.Histogram.estimate_is_plugin
#print axioms BMI.Histogram.isCell_unique
#print axioms BMI.Histogram.isRange_unique
#print axioms BMI.Histogram.estimate_bounds
#print axioms BMI.Histogram.estimate_swap
#print axioms BMI.Histogram.estimate_perm
#print axioms BMI.Histogram.estimate_standardize
#print axioms BMI.Histogram.mkParams_spec
#print axioms BMI.Neural.donskerVaradhan_backends
#print axioms BMI.Neural.nwj_backends
#print axioms BMI.Neural.infonce_backends
#print axioms BMI.Neural.objectives_formulas
#print axioms BMI.Neural.infonce_le_log
#print axioms BMI.Neural.nwj_le_donskerVaradhan
#print axioms BMI.Neural.donskerVaradhan_shift
#print axioms BMI.Neural.infonce_shift
#print axioms BMI.Neural.objectives_order
#print axioms BMI.Neural.infonce_shift_y
#print axioms BMI.Neural.donskerVaradhan_le_mi
#print axioms BMI.Neural.nwj_le_mi
#print axioms BMI.Neural.infonce_le_mi
#print axioms BMI.Training.training_spec
#print axioms BMI.Training.training_reports_steps
#print axioms BMI.Training.training_zero_period
#print axioms BMI.Training.training_no_test_nan
#print axioms BMI.NeuralEstimator.basicStep_ascends
#print axioms BMI.Training.final_mi_without_tests
#print axioms BMI.Training.final_mi_is_max_partial
#print axioms BMI.Training.final_mi_first_nan
#print axioms BMI.Training.final_mi_is_max_false
#print axioms BMI.Training.early_stop_iff
#print axioms BMI.Training.early_stop_iff_of_numbers
#print axioms BMI.Training.improvement_rearms
#print axioms BMI.Training.negIdx_ends
#print axioms BMI.Training.detect_warnings_spec
#print axioms BMI.Training.smooth_factor_checked
#print axioms BMI.Training.decrease_flag_on_constant
#print axioms BMI.Training.still_increasing_blind
#print axioms BMI.Mine.denominator_is_ema
#print axioms BMI.Mine.gradient_is_equation_12
#print axioms BMI.Mine.value_is_donsker_varadhan
#print axioms BMI.Mine.no_smoothing_gradient
#print axioms BMI.Mine.ema_constant
#print axioms BMI.Mine.ema_last_weight
#print axioms BMI.Mine.mineTraining_spec
#print axioms BMI.Mine.first_step_gradient
#print axioms BMI.Mine.start_is_not_negligible
#print axioms BMI.Mine.step_follows_equation_12
#print axioms BMI.Mine.step_ascends
#print axioms BMI.NeuralData.getBatch_pairs
#print axioms BMI.NeuralData.getBatch_full
#print axioms BMI.NeuralData.samplePairedUnpaired_pairs
#print axioms BMI.NeuralData.trainTestSplit_partition
#print axioms BMI.NeuralData.trainTestSplit_disjoint_partial
#print axioms BMI.NeuralData.trainTestSplit_disjoint_false
#print axioms BMI.NeuralData.trainTestSplit_error_iff
#print axioms BMI.NeuralData.getBatch_mispairs
#print axioms BMI.NeuralEstimator.estimate_batch_too_large
#print axioms BMI.NeuralEstimator.mine_batch_too_large
#print axioms BMI.NeuralEstimator.estimate_spec
#print axioms BMI.NeuralEstimator.estimate_history_independent
#print axioms BMI.NeuralEstimator.estimate_refuses
#print axioms BMI.NeuralEstimator.estimate_zero_period
#print axioms BMI.NeuralEstimator.mine_estimate_total
#print axioms BMI.Run.run_reports
#print axioms BMI.Run.run_unreadable
#print axioms BMI.Run.run_returns_iff
#print axioms BMI.Run.run_pure_partial
#print axioms BMI.Run.run_mutates_caller
#print axioms BMI.Run.run_leaks_between_runs
#print axioms BMI.SampleIO.read_save
#print axioms BMI.SampleIO.read_save_exact
#print axioms BMI.SampleIO.save_ok_iff
#print axioms BMI.SampleIO.read_foreign_refused
#print axioms BMI.Chunker.chunker_error_iff
#print axioms BMI.Chunker.chunker_concat
#print axioms BMI.Chunker.chunker_shape
#print axioms BMI.PSpace.scaled_mean
#print axioms BMI.PSpace.scaled_var
#print axioms BMI.PSpace.scaled_const
#print axioms BMI.PSpace.flagged_zero_iff
#print axioms BMI.PSpace.scaled_affine_invariant
#print axioms BMI.PSpace.scaled_scale_invariant
#print axioms BMI.PSpace.init_length_mismatch
#print axioms BMI.PSpace.init_spec
#print axioms BMI.PSpace.getItem_spec
#print axioms BMI.PSpace.init_empty
#print axioms BMI.PSpace.len_spec
#print axioms BMI.Task.task_advertises
#print axioms BMI.Task.id_ok_iff
#print axioms BMI.Task.sample_delegates
#print axioms BMI.Task.save_sample_roundtrip
#print axioms BMI.TaskIds.id_injective_partial
#print axioms BMI.TaskIds.spiral_collision
#print axioms BMI.TaskIds.quantile_collision
#print axioms BMI.TaskIds.rounding_collision
#print axioms BMI.TaskIds.registry_ids_nodup
#print axioms BMI.TaskIds.lookup_by_id
#print axioms BMI.TaskIds.benchmark_registry
#print axioms BMI.Dumper.dump_means_partial
#print axioms BMI.Dumper.dump_enum_of_path_fails
#print axioms BMI.Dumper.means_unique
#print axioms BMI.Dumper.dump_unknown_raises
#print axioms BMI.Timer.check_elapsed
#print axioms BMI.Timer.lastReset_is_last
#print axioms BMI.Timer.reported_nonneg
#print axioms BMI.Timer.intervals_disjoint
#print axioms BMI.External.rCall_ok
#print axioms BMI.External.juliaCall_ok
#print axioms BMI.External.run_spec
#print axioms BMI.External.estimate_partial
#print axioms BMI.External.estimate_refuses
#print axioms BMI.External.constructed_iff
#print axioms BMI.External.bnsl_never
#print axioms BMI.External.bnsl_zero
#print axioms BMI.External.run_warning
#print axioms BMI.External.path_exchanged
#print axioms BMI.Gmm.calls_fresh
#print axioms BMI.Gmm.runMcmc_partial
#print axioms BMI.Gmm.runMcmc_refuses
#print axioms BMI.Gmm.runMcmc_zero
#print axioms BMI.Gmm.runMcmc_stale
#print axioms BMI.Gmm.calls_before_run
#print axioms BMI.Gmm.alpha_ignored
#print axioms BMI.Gmm.model_alpha
#print axioms BMI.Gmm.model_alpha_zero
#print axioms BMI.Gmm.getPosteriorMi_spec
#print axioms BMI.Gmm.getPosteriorMi_edges
#print axioms BMI.Gmm.create_thinned
#print axioms BMI.Gmm.getBmmDistribution_clamps
#print axioms BMI.Gmm.covMatrix_posDef
#print axioms BMI.Gmm.component_law
#print axioms BMI.Gmm.sampleIntoBmm_spec
#print axioms BMI.Gmm.sampleIntoBmm_refuses
#print axioms BMI.Gmm.covMatrix_apply
#print axioms BMI.Gmm.covMatrix_scales
#print axioms BMI.Gmm.getSampleMi_spec
#print axioms BMI.Subplots.subplots_spec
#print axioms BMI.Subplots.placed_inside
#print axioms BMI.Subplots.placed_disjoint
#print axioms BMI.Subplots.subplots_refuses
#print axioms BMI.Subplots.subplots_refuses_empty
#print axioms BMI.Subplots.pack_spec
#print axioms BMI.Subplots.single_ignores_squeeze
#print axioms BMI.Tables.benchmarkTable_spec
#print axioms BMI.Tables.benchmarkTable_mean_partial
#print axioms BMI.Tables.benchmarkTable_mean_false
#print axioms BMI.Tables.benchmarkTable_ignores_n_samples
#print axioms BMI.Tables.benchmarkTable_name_clash
#print axioms BMI.Tables.maximum_spec
#print axioms BMI.Tables.converged_iff
#print axioms BMI.Tables.largest_converged_iff
#print axioms BMI.Tables.convergenceTable_spec
#print axioms BMI.Tables.convergenceTable_ignores_n_samples
#print axioms BMI.Tables.convergenceTable_fraction
#print axioms BMI.Cca.estimate_spec
#print axioms BMI.Cca.estimate_perm
#print axioms BMI.Cca.estimate_canonical
#print axioms BMI.Cca.corr_eq
#print axioms BMI.Cca.miGauss_of_lt
#print axioms BMI.Cca.miGauss_of_eq
#print axioms BMI.Cca.corr_affine
#print axioms BMI.Cca.corr_two_points
#print axioms BMI.Cca.estimate_mismatch
#print axioms BMI.Kde.create_spec
#print axioms BMI.Kde.create_refuses
#print axioms BMI.Kde.create_accepts_negative
#print axioms BMI.Kde.estimate_spec
#print axioms BMI.Kde.estimate_refuses
#print axioms BMI.Kde.estimate_perm
#print axioms BMI.Kde.estimate_swap
#print axioms BMI.Kde.estimate_shift
#print axioms BMI.Kde.estimate_affine
#print axioms BMI.Kde.entropy_bounds
#print axioms BMI.Kde.create_accepts_iff
#print axioms BMI.Critic.mlpInit_shapes
#print axioms BMI.Critic.mlp_accepts_iff_partial
#print axioms BMI.Critic.mlp_accepts_declared
#print axioms BMI.Critic.mlp_swapped_dimensions
#print axioms BMI.Critic.mlp_without_hidden_layers
#print axioms BMI.Search.bimodalCdf_spec
#print axioms BMI.Search.uniform_correct
#print axioms BMI.Search.bimodal_exact_correct
#print axioms BMI.Search.bimodal_marginal
#print axioms BMI.Search.bimodalTask_correct_partial
#print axioms BMI.Search.bimodalTask_overstates
#print axioms BMI.Search.bimodalTask_correct_iff
#print axioms BMI.Student.moderate_df_is_finite_partial
#print axioms BMI.Student.large_df_is_nan
#print axioms BMI.CorrectionFigure.intermediate_df_is_infinite
#print axioms BMI.Student.Ext.arithmetic
#print axioms BMI.Student.sample_one_point_fails
#print axioms BMI.Student.taskMultinormalDense_correct
#print axioms BMI.Student.taskMultinormalDense_accepts_iff
#print axioms BMI.Student.taskMultinormalLvm_correct
#print axioms BMI.Student.taskMultinormalLvm_accepts_iff
#print axioms BMI.Student.taskMultinormalSparse_correct
#print axioms BMI.Student.taskMultinormal2pair_correct
#print axioms BMI.Student.taskStudentIdentity_correct
#print axioms BMI.Student.taskStudentDense_correct
#print axioms BMI.Student.taskStudentDense_accepts_iff
#print axioms BMI.Student.taskStudentSparse_correct
#print axioms BMI.Student.taskStudent2pair_correct
#print axioms BMI.Bmm.pmi_density
#print axioms BMI.Bmm.monteCarlo_estimate
#print axioms BMI.Bmm.gaussianMixture_estimate
#print axioms BMI.Bmm.mixture_mi_le
#print axioms BMI.Bmm.mixture_of_products_mi_le
#print axioms BMI.Bmm.monteCarlo_negative
#print axioms BMI.Bmm.monteCarlo_nonneg_partial
#print axioms BMI.Chernoff.below_improbable
#print axioms BMI.Chernoff.negative_geometric
#print axioms BMI.Additive.single_layer_additive
#print axioms BMI.Additive.objectives_nonpos
#print axioms BMI.Additive.mineValue_nonpos
#print axioms BMI.NeuralEstimator.mine_additive_nonpos
#print axioms BMI.NeuralEstimator.estimate_additive_nonpos
#print axioms BMI.NeuralEstimator.mine_history_independent
#print axioms BMI.NeuralEstimator.estimate_keeps_params
#print axioms BMI.NeuralEstimator.mkMine_accepts_iff
#print axioms BMI.NeuralEstimator.mk_accepts_iff
#print axioms BMI.NeuralEstimator.keeps_params
#print axioms BMI.MixtureTasks.taskX_correct
#print axioms BMI.MixtureTasks.taskAi_correct
#print axioms BMI.MixtureTasks.taskGalaxy_correct
#print axioms BMI.MixtureTasks.taskWaves_correct
#print axioms BMI.MixtureTasks.taskConcentric_correct
#print axioms BMI.MixtureTasks.taskInliers_correct
#print axioms BMI.MixtureTasks.taskX_accepts_iff
#print axioms BMI.MixtureTasks.taskAi_accepts_iff
#print axioms BMI.MixtureTasks.taskGalaxy_accepts_iff
#print axioms BMI.MixtureTasks.taskWaves_accepts_iff
#print axioms BMI.MixtureTasks.taskConcentric_accepts_iff
#print axioms BMI.MixtureTasks.taskInliers_accepts_iff
#print axioms BMI.MixtureTasks.lawX_mi_zero_iff
#print axioms BMI.MixtureTasks.lawAi_mi_pos
#print axioms BMI.MixtureTasks.lawGalaxy_mi_zero_iff
#print axioms BMI.MixtureTasks.lawWaves_mi_zero_iff
#print axioms BMI.MixtureTasks.lawConcentric_mi_zero_iff
#print axioms BMI.MixtureTasks.lawInliers_mi_zero_iff
#print axioms BMI.Scaling.rescale_spec
#print axioms BMI.Scaling.rescale_order
#print axioms BMI.Scaling.rescale_affine
#print axioms BMI.Scaling.rescale_empty
#print axioms BMI.Scaling.uniformise_spec
#print axioms BMI.Scaling.uniformise_affine
#print axioms BMI.Scaling.uniformise_rescale
#print axioms BMI.Scaling.uniformise_one_quantile
#print axioms BMI.Scaling.gaussianise_monotone
#print axioms BMI.Scaling.gaussianise_collapses
#print axioms BMI.Scaling.uniformise_large_collapses
#print axioms BMI.Scaling.quantileTransform_ok_iff
#print axioms BMI.Scaling.rescale_task
#print axioms BMI.Scaling.quantile_task
#print axioms BMI.Scaling.merge_lookup
#print axioms BMI.Scaling.merge_merge_lookup
#print axioms BMI.Scaling.scaleTasks_spec
#print axioms BMI.Scaling.uniformise_rank
#print axioms BMI.Scaling.quantiles_all
#print axioms BMI.Bmm.normal_profile
#print axioms BMI.Bmm.bilinearLaw_symm
#print axioms BMI.Bmm.bilinearLaw_moments
#print axioms BMI.Bmm.bilinearLaw_diagonal
#print axioms BMI.Bmm.canonical_profile
#print axioms BMI.Bmm.script_profile
#print axioms BMI.Workflow.results_spec
#print axioms BMI.Workflow.results_length
#print axioms BMI.Workflow.results_nodup
#print axioms BMI.Workflow.job_spec
#print axioms BMI.Workflow.negative_seed_fails
#print axioms BMI.Workflow.slash_misattributed
#print axioms BMI.Workflow.same_id_last_wins
#print axioms BMI.Workflow.callId_name
#print axioms BMI.Workflow.setups_usable
#print axioms BMI.Workflow.pyInt_intStr
#print axioms BMI.Workflow.sampleTask_outcome
#print axioms BMI.Workflow.applyEstimator_fails
#print axioms BMI.Workflow.results_without_ids
#print axioms BMI.Workflow.setups_spirals
#print axioms BMI.FigureTables.nSamplesNeeded_spec
#print axioms BMI.FigureTables.isSolved_single
#print axioms BMI.FigureTables.isSolved_meanError
#print axioms BMI.FigureTables.neuralFail_iff
#print axioms BMI.FigureTables.not_neural_kept
#print axioms BMI.FigureTables.largest_kept
#print axioms BMI.FigureTables.makeTable_keys
#print axioms BMI.FigureTables.makeTable_unnamed
#print axioms BMI.FigureTables.samplesTable_spec
#print axioms BMI.FigureTables.miTable_spec
#print axioms BMI.FigureTables.miTable_missing
#print axioms BMI.FigureTables.failsTable_spec
#print axioms BMI.FigureTables.good_ignores
#print axioms BMI.FigureTables.independent_never_solved
#print axioms BMI.FigureTables.meanError_spec
#print axioms BMI.ReadResults.readRow_get
#print axioms BMI.ReadResults.readResults_rows
#print axioms BMI.ReadResults.collision_replaces
#print axioms BMI.ReadResults.params_names
#print axioms BMI.ReadResults.params_disjoint
#print axioms BMI.ReadResults.shipped_survive
#print axioms BMI.ReadResults.params_overwritten
#print axioms BMI.ReadResults.belowMax_spec
#print axioms BMI.ReadResults.belowMax_empty
#print axioms BMI.ReadResults.shownStd_spec
#print axioms BMI.ReadResults.paperNames_complete
#print axioms BMI.ReadResults.paperTable_spec
#print axioms BMI.ReadResults.paperEntries_ignores_size
#print axioms BMI.ReadResults.readRow_info
#print axioms BMI.ReadResults.readRow_missing
#print axioms BMI.Sparsity.lvm_full
#print axioms BMI.Sparsity.lvm_empty
#print axioms BMI.Sparsity.lvm_sparse
#print axioms BMI.Sparsity.getInitialAlpha_spec
#print axioms BMI.Sparsity.getLambdaTask_spec
#print axioms BMI.Sparsity.getNInteractingTask_spec
#print axioms BMI.Sparsity.figure_alpha
#print axioms BMI.Sparsity.figure_tasks
#print axioms BMI.Sparsity.figure_ids
#print axioms BMI.Sparsity.shown_covariance
#print axioms BMI.Sparsity.refused
#print axioms BMI.Sparsity.strength_decreases
#print axioms BMI.Sparsity.paramsToLvm_missing
#print axioms BMI.Outliers.signal_correct
#print axioms BMI.Outliers.mixture_correct
#print axioms BMI.Outliers.contamination_mono
#print axioms BMI.Outliers.variances_spec
#print axioms BMI.Outliers.mixingTasks_spec
#print axioms BMI.Outliers.varianceTasks_spec
#print axioms BMI.Outliers.unscaledTasks_spec
#print axioms BMI.Outliers.panels_spec
#print axioms BMI.Outliers.varianceLine_spec
#print axioms BMI.Outliers.groundTruth_spec
#print axioms BMI.Integration.integrates
#print axioms BMI.Integration.experiment
#print axioms BMI.Integration.ground_truth
#print axioms BMI.Integration.unbiased_critic
#print axioms BMI.Integration.constant_bias
#print axioms BMI.Integration.functional_bias
#print axioms BMI.Integration.high_dimension
#print axioms BMI.Integration.files
#print axioms BMI.Profiles.asWritten_fails
#print axioms BMI.Profiles.inOrder_eq
#print axioms BMI.Profiles.figure_fails
#print axioms BMI.Profiles.plot_fails
#print axioms BMI.Profiles.normal_partial
#print axioms BMI.Profiles.uShape_partial
#print axioms BMI.Profiles.profile_mean
#print axioms BMI.Profiles.figure_partial
#print axioms BMI.Profiles.plot_partial
#print axioms BMI.Gallery.gallery_spec
#print axioms BMI.Gallery.informations
#print axioms BMI.Gallery.normal_numbers
#print axioms BMI.Gallery.bent_profile
#print axioms BMI.Gallery.dispersion_eq
#print axioms BMI.Gallery.sigmoid_diffeo
#print axioms BMI.Gallery.isProfile_map
#print axioms BMI.GmmBenchmark.tasks_named
#print axioms BMI.GmmBenchmark.summary_spec
#print axioms BMI.GmmBenchmark.interval_covers
#print axioms BMI.GmmBenchmark.results_spec
#print axioms BMI.GmmBenchmark.table_spec
#print axioms BMI.GmmBenchmark.table_unknown
#print axioms BMI.GmmBenchmark.benchmark_table
#print axioms BMI.GmmBenchmark.seeds_runs
#print axioms BMI.Discrete.define_spec
#print axioms BMI.Discrete.example_mi
#print axioms BMI.Discrete.example_snd
#print axioms BMI.Discrete.estimate_spec
#print axioms BMI.Discrete.profile_spec
#print axioms BMI.Discrete.points_spec
#print axioms BMI.Discrete.bit_mixture_le
#print axioms BMI.Fitting.exampleX
#print axioms BMI.Fitting.exampleGalaxy
#print axioms BMI.Fitting.exampleAi
#print axioms BMI.Fitting.exampleWaves
#print axioms BMI.Fitting.on_axis
#print axioms BMI.Fitting.distributions_ok
#print axioms BMI.Fitting.figures
#print axioms BMI.Fitting.wanted_figures
#print axioms BMI.Fitting.figure_unknown
#print axioms BMI.Fitting.approx_counts_back
#print axioms BMI.Fitting.outputs_separate
#print axioms BMI.Neural.nwj_optimal
#print axioms BMI.Neural.donskerVaradhan_optimal
#print axioms BMI.Neural.donskerVaradhan_batch
#print axioms BMI.Neural.donskerVaradhan_overshoots
#print axioms BMI.Neural.infonce_optimal
#print axioms BMI.Neural.infonce_lt_mi
#print axioms BMI.Neural.continuous_optimal
#print axioms BMI.CriticPlots.notebook_spec
#print axioms BMI.CriticPlots.figure_compares
#print axioms BMI.CriticPlots.trained
#print axioms BMI.CriticPlots.panels_iff
#print axioms BMI.CriticPlots.best_critics
#print axioms BMI.CriticPlots.balls_pmi
#print axioms BMI.CriticPlots.node_pixel
#print axioms BMI.CriticPlots.critic_image
#print axioms BMI.CompareFigure.figure_spec_partial
#print axioms BMI.CompareFigure.benchmarks_figure_partial
#print axioms BMI.CompareFigure.figure_raises
#print axioms BMI.CompareFigure.skewed
#print axioms BMI.CompareFigure.figure_missing
#print axioms BMI.CompareFigure.getY_spec
#print axioms BMI.CompareFigure.strips_disjoint
#print axioms BMI.CompareFigure.ids_present
#print axioms BMI.CompareFigure.constant_interval
#print axioms BMI.CompareFigure.normal_on_axis
#print axioms BMI.CompareFigure.yScaler_spec
#print axioms BMI.CompareFigure.meanOf_missing
#print axioms BMI.ChiCheck.plotSamples_spec
#print axioms BMI.ChiCheck.plotSamples_rejects
#print axioms BMI.ChiCheck.line_is_information
#print axioms BMI.ChiCheck.main_spec
#print axioms BMI.Appearing.main_spec
#print axioms BMI.Appearing.mixtures
#print axioms BMI.Appearing.diagonal_mi
#print axioms BMI.Appearing.pixel_inside
#print axioms BMI.Appearing.pixel_border
#print axioms BMI.MiFigure.plotMi_spec
#print axioms BMI.MiFigure.plotMi_rejects
#print axioms BMI.MiFigure.band_around
#print axioms BMI.MiFigure.spiralPlane_correct
#print axioms BMI.MiFigure.panel_spec
#print axioms BMI.MiFigure.panel_places
#print axioms BMI.MiFigure.panel_truth
#print axioms BMI.MiFigure.findSpeed_iff
#print axioms BMI.MiFigure.spiral_figure
#print axioms BMI.MiFigure.exponents_spec
#print axioms BMI.MiFigure.degrees_spec
#print axioms BMI.MiFigure.tailNormal_correct
#print axioms BMI.MiFigure.tailStudent_correct
#print axioms BMI.MiFigure.tail_figure
#print axioms BMI.MiFigure.plotSpiral_spec
#print axioms BMI.Concept.spiral_identifiers
#print axioms BMI.MiFigure.palette
#print axioms BMI.Chernoff.negative_improbable
#print axioms BMI.Chernoff.examples_positive
#print axioms BMI.CoolTasks.cool_tasks
#print axioms BMI.CoolTasks.plotDistributions_spec
#print axioms BMI.CoolTasks.workflow_spec
#print axioms BMI.CoolTasks.load_size
#print axioms BMI.CoolTasks.plotResults_unknown
#print axioms BMI.CorrectionFigure.correction_is_mi
#print axioms BMI.CorrectionFigure.correction_symm
#print axioms BMI.CorrectionFigure.correction_decreasing
#print axioms BMI.CorrectionFigure.correction_add
#print axioms BMI.CorrectionFigure.correction_dims
#print axioms BMI.CorrectionFigure.correction_rate
#print axioms BMI.CorrectionFigure.student_mi_decreasing
#print axioms BMI.CorrectionFigure.figure_spec
#print axioms BMI.Concept.main11_partial
#print axioms BMI.Concept.main21_partial
#print axioms BMI.Concept.fixed_of
#print axioms BMI.Concept.stairs_strictMono
#print axioms BMI.Scripts.concept_fails
#print axioms BMI.Concept.experiment_partial
#print axioms BMI.Concept.experiment_one
#print axioms BMI.Concept.createBaseSampler_iff
#print axioms BMI.Scripts.spiral_fails
#print axioms BMI.HighMi.high_mi
#print axioms BMI.HighMi.tasks_spec
#print axioms BMI.HighMi.taskList_spec
#print axioms BMI.HighMi.config_ready
#print axioms BMI.HighMi.high_mi_runs
#print axioms BMI.PmiFigure.figure_spec
#print axioms BMI.PmiFigure.titles
#print axioms BMI.PmiFigure.student_logpdfratio
#print axioms BMI.PmiFigure.gaussian_logpdfratio
#print axioms BMI.PmiFigure.normalPoints_law
#print axioms BMI.PmiFigure.studentPoints_law
#print axioms BMI.PmiFigure.trained
#print axioms BMI.PmiFigure.normal_agree_iff
#print axioms BMI.PmiFigure.student_agree_iff
#print axioms BMI.PmiFigure.normal_disagree
#print axioms BMI.PmiFigure.student_disagree
#print axioms BMI.Registry.build_honest
#print axioms BMI.Registry.benchmark_tasks_partial
#print axioms BMI.Registry.bimodal_overstates
#print axioms BMI.Registry.entries_facts
#print axioms BMI.Registry.honest_sample
#print axioms BMI.Registry.base_names
#print axioms BMI.Registry.transformed_names
#print axioms BMI.Registry.entry_dims
#print axioms BMI.Paper.tasks_ready
#print axioms BMI.Paper.toNd_rows
#print axioms BMI.Paper.workflows_sound
#print axioms BMI.Paper.names_distinct
#print axioms BMI.Paper.estimates_figure
#print axioms BMI.Paper.estimates_figure_missing
#print axioms BMI.Paper.estimates_figure_made
#print axioms BMI.Paper.estimates_figure_iff
#print axioms BMI.Paper.failures_figure
#print axioms BMI.Paper.failures_all_iff
#print axioms BMI.Paper.samples_figure
#print axioms BMI.Paper.usable_nil_iff
#print axioms BMI.Paper.full_workflows
#print axioms BMI.Paper.chosen_workflows
#print axioms BMI.Paper.arch_workflow_partial
#print axioms BMI.Paper.arch_workflow_fails
#print axioms BMI.Paper.key_ambiguous
#print axioms BMI.Paper.keys_agree_partial
#print axioms BMI.Paper.tasks_shown
#print axioms BMI.Paper.frame_rows
#print axioms BMI.SamplerFigure.figure
#print axioms BMI.SamplerFigure.shades_mono
#print axioms BMI.SamplerFigure.shades_strict
#print axioms BMI.SamplerFigure.heights_are_shades
#print axioms BMI.SamplerFigure.points_apart
#print axioms BMI.SparsityFigure.sparsity
#print axioms BMI.SparsityFigure.tasks_spec
#print axioms BMI.SparsityFigure.matrices
#print axioms BMI.NeuralEstimator.mkNamed_spec
#print axioms BMI.NeuralEstimator.named_value
#print axioms BMI.NeuralEstimator.infonce_ceiling
#print axioms BMI.NeuralEstimator.constant_nonpos
#print axioms BMI.NeuralEstimator.mine_constant_nonpos
#print axioms BMI.NeuralEstimator.units
#print axioms BMI.NeuralEstimator.mine_units
#print axioms BMI.NeuralEstimator.backend_irrelevant
#print axioms BMI.NeuralEstimator.names_tell
#print axioms BMI.AddNoise.addNoise_spec
#print axioms BMI.AddNoise.entries_normal
#print axioms BMI.AddNoise.no_ties
#print axioms BMI.AddNoise.fresh_noise_partial
#print axioms BMI.AddNoise.shared_noise
#print axioms BMI.AddNoise.shared_noise_infinite
#print axioms BMI.AddNoise.shared_noise_constants
#print axioms BMI.Wrapper.wrapped_run
#print axioms BMI.Wrapper.wrapped_estimate
#print axioms BMI.Wrapper.wrapped_params
#print axioms BMI.AddNoise.finite_of_distinct
#print axioms BMI.AddNoise.ksg_finite
#print axioms BMI.AddNoise.ksg_needs_noise
#print axioms BMI.Consistency.cca_converges
#print axioms BMI.Consistency.cca_consistent
#print axioms BMI.Consistency.cca_student
#print axioms BMI.Consistency.exists_canonicalFit
#print axioms BMI.Bmm.monteCarlo_converges
#print axioms BMI.Bmm.monteCarlo_diverges
#print axioms BMI.Bmm.error_bars
#print axioms BMI.Bmm.error_bars_zero
#print axioms BMI.Bmm.variance_zero_iff
#print axioms BMI.Bmm.gaussianMixture_error_bars
#print axioms BMI.Consistency.histogram_bounded
#print axioms BMI.Consistency.exists_cells
#print axioms BMI.Consistency.histogram_additiveUniform
#print axioms BMI.Consistency.histogram_normal
#print axioms BMI.Consistency.histogram_default
#print axioms BMI.Batch.nwj_limit
#print axioms BMI.Batch.donskerVaradhan_limit
#print axioms BMI.Batch.infonce_limit
#print axioms BMI.Batch.limits_le_mi
#print axioms BMI.Batch.limits_optimal
#print axioms BMI.Batch.MeanConverges.expectation
#print axioms BMI.Batch.MeanConverges.probability
#print axioms BMI.Batch.MeanConverges.sampler
#print axioms BMI.Consistency.histogram_fine
#print axioms BMI.Consistency.histogram_bias
#print axioms BMI.Consistency.histogram_additiveUniform_fine
#print axioms BMI.Critic.mlp_rich
#print axioms BMI.Critic.mlp_rich_additiveUniform
#print axioms BMI.Critic.mlp_no_hidden_blind
#print axioms BMI.Critic.separable_blind
#print axioms BMI.Scripts.importModule_spec
#print axioms BMI.Scripts.runScript_main
#print axioms BMI.Scripts.runScript_error
#print axioms BMI.Scripts.api_scripts_fail
#print axioms BMI.Scripts.other_scripts_run
#print axioms BMI.Scripts.api_scripts_repaired
#print axioms BMI.Scripts.timeMain_spec
#print axioms BMI.Scripts.timeMain_refuses
#print axioms BMI.Kde.kde_limit
#print axioms BMI.Kde.kde_limit_standardised
#print axioms BMI.Kde.kde_independent
#print axioms BMI.Kde.kde_normal
#print axioms BMI.Kde.kde_normal_low
#print axioms BMI.Kde.kde_normal_anti
#print axioms BMI.Kde.kde_normal_small
#print axioms BMI.Kde.kde_normal_standardised
#print axioms BMI.Kde.kde_normal_standardised_small
#print axioms BMI.Kde.correlation_posDef
#print axioms BMI.Kde.kde_consistent
#print axioms BMI.Kde.kde_multinormal
#print axioms BMI.Kde.kde_student
#print axioms BMI.Kde.kde_bounded
#print axioms BMI.Kde.kde_additiveUniform
#print axioms BMI.Kde.width_rule
#print axioms BMI.Kde.mass_pos
#print axioms BMI.Kde.kde_tasks
#print axioms BMI.Kde.kde_benchmark
#print axioms BMI.Kde.task_sides
#print axioms BMI.Kde.kde_mixture
#print axioms BMI.Kde.kde_taskX
#print axioms BMI.Kde.kde_taskAi
#print axioms BMI.Kde.kde_taskGalaxy
#print axioms BMI.Kde.kde_taskWaves
#print axioms BMI.Kde.kde_taskConcentric
#print axioms BMI.Kde.kde_taskInliers
#print axioms BMI.Cca.normal_le_mi
#print axioms BMI.Cca.cca_normal_marginals
#print axioms BMI.Cca.cca_mixture
#print axioms BMI.Cca.cca_taskX
#print axioms BMI.Cca.cca_taskConcentric
#print axioms BMI.Cca.cca_taskAi
#print axioms BMI.Cca.cca_taskInliers
#print axioms BMI.Cca.cca_tasks
#print axioms BMI.Cca.cca_odd
#print axioms BMI.Cca.cca_additive
#print axioms BMI.Cca.cca_benchmark
#print axioms BMI.Cca.cca_too_much
#print axioms BMI.Cca.cca_rank
#print axioms BMI.Cca.cca_ranks
#print axioms BMI.Cca.cca_bent
#print axioms BMI.Cca.cca_bent_benchmark
#print axioms BMI.Cca.cca_squashed
#print axioms BMI.Cca.cca_undone
#print axioms BMI.Cca.cca_roll
