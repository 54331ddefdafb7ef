import Verif.Model.Bmm
import Verif.Model.Losses
import Verif.Model.MatrixUtils
import Verif.Model.Workflow

/-!
Model of the experiment on how well the bounds integrate a known pointwise mutual information
(/repo/workflows/projects/Mixtures/how_good_integration_is.smk): distributions, critics, samples, estimates and ground truth.

A critic is a function of two points with real values (the pointwise mutual information of these distributions is finite
everywhere; the functions of the repository act on whole batches or, under `jax.vmap`, on single points).  Snakemake is as in
Workflow.lean; saving and loading an array or a number gives it back.
-/

namespace BMI.Integration

open BMI.Samplers BMI.Bmm BMI.MatrixUtils BMI.Workflow
open BMI.Neural (Linear.nwj Linear.infonce Linear.donskerVaradhan Linear.paired)
open BMI.Run (Dict)

variable {Key : Type}

/-- A critic, such as the argument `pmi` of the estimators
(/repo/workflows/projects/Mixtures/how_good_integration_is.smk:24,27). -/
abbrev Critic := List ℝ → List ℝ → ℝ

/-- `monte_carlo` (/repo/workflows/projects/Mixtures/how_good_integration_is.smk:24-25). -/
noncomputable def monteCarlo (pmi : Critic) (xs ys : Arr) : EReal := Neural.mean (Linear.paired pmi xs ys)

/-- `nwj_shifted` (/repo/workflows/projects/Mixtures/how_good_integration_is.smk:27-32). -/
noncomputable def nwjShifted (pmi : Critic) (xs ys : Arr) : EReal :=
  let critic := fun x y => pmi x y + 1
  Linear.nwj critic xs ys

/-- `ESTIMATORS` (/repo/workflows/projects/Mixtures/how_good_integration_is.smk:46-51). -/
noncomputable def estimators : Dict (Critic → Arr → Arr → EReal) :=
  [("NWJ", nwjShifted), ("InfoNCE", Linear.infonce), ("DV", Linear.donskerVaradhan), ("MC", monteCarlo)]

/-- `DistributionAndPMI` (/repo/workflows/projects/Mixtures/how_good_integration_is.smk:34-38). -/
structure DistributionAndPMI (Key : Type) where
  dist : JointDistribution Key
  pmi : Option Critic

/-- `dist.pmi` (/repo/workflows/projects/Mixtures/how_good_integration_is.smk:101,105,113) at one point, as a real number. -/
noncomputable def pmiOf (J : JointDistribution Key) : Critic := fun x y => (J.pmiAt x y).toReal

/-- `four_balls` (/repo/workflows/projects/Mixtures/how_good_integration_is.smk:68-92). -/
noncomputable def fourBalls (R : JaxRandom Key) (T : Tfp Key) : Except Err (JointDistribution Key) := do
  let cov ← canonicalCorrelation [0.0] 0
  let c1 ← multivariateNormalDistribution R T 1 1 (rowsOf cov) (some [-1.25, -1.25])
  let c2 ← multivariateNormalDistribution R T 1 1 (rowsOf cov) (some [1.25, 1.25])
  let c3 ← multivariateNormalDistribution R T 1 1 (rowsOf ((0.2 : ℝ) • cov)) (some [-2.5, 2.5])
  let c4 ← multivariateNormalDistribution R T 1 1 (rowsOf ((0.2 : ℝ) • cov)) (some [2.5, -2.5])
  mixture T [0.3, 0.3, 0.2, 0.2] [c1, c2, c3, c4]

/-- `_DISTRIBUTIONS` (/repo/workflows/projects/Mixtures/how_good_integration_is.smk:95-110). -/
noncomputable def distributions (R : JaxRandom Key) (T : Tfp Key) : Except Err (Dict (DistributionAndPMI Key)) := do
  let balls ← fourBalls R T
  let cov ← canonicalCorrelation (List.replicate 25 0.8) 0
  let normal ← multivariateNormalDistribution R T 25 25 (rowsOf cov) none
  .ok [("Four_Balls", ⟨balls, none⟩),
    ("Four_Balls_Biased", ⟨balls, some fun x y => pmiOf balls x y + 0.5⟩),
    ("Four_Balls_SinSquare", ⟨balls, some fun x y => pmiOf balls x y + Real.sin ((x.headD 0) ^ 2)⟩),
    ("Normal-25Dim", ⟨normal, none⟩)]

/-- `DISTRIBUTION_AND_PMIS` (/repo/workflows/projects/Mixtures/how_good_integration_is.smk:112-114): here the critics are
filled in. -/
noncomputable def distributionAndPmis (R : JaxRandom Key) (T : Tfp Key) :
    Except Err (Dict (JointDistribution Key × Critic)) := do
  let d ← distributions R T
  .ok (d.map fun e => (e.1, (e.2.dist, e.2.pmi.getD (pmiOf e.2.dist))))

/-- `N_POINTS` (/repo/workflows/projects/Mixtures/how_good_integration_is.smk:116). -/
def nPoints : List ℕ := [8, 16, 32, 64, 128, 256, 512, 1024, 2048, 4096, 8192]

/-- `SEEDS` (/repo/workflows/projects/Mixtures/how_good_integration_is.smk:117). -/
def seeds : List ℕ := List.range 20

/-- `"{setup}/samples/{n_points}-{seed}.npz"` (/repo/workflows/projects/Mixtures/how_good_integration_is.smk:129,140). -/
def samplePat : List Tok :=
  [.wild, .lit "/samples/".toList, .wild, .lit "-".toList, .wild, .lit ".npz".toList]

/-- `"{setup}/estimates/{estimator}/{n_points}-{seed}.json"`
(/repo/workflows/projects/Mixtures/how_good_integration_is.smk:141,162). -/
def estimatePat : List Tok :=
  [.wild, .lit "/estimates/".toList, .wild, .lit "/".toList, .wild, .lit "-".toList, .wild, .lit ".json".toList]

/-- `"{setup}/_ground_truth_seeds/{seed}.json"` (/repo/workflows/projects/Mixtures/how_good_integration_is.smk:176,200). -/
def truthPat : List Tok := [.wild, .lit "/_ground_truth_seeds/".toList, .wild, .lit ".json".toList]

/-- Rule `sample_distribution` (/repo/workflows/projects/Mixtures/how_good_integration_is.smk:128-136): the arrays saved for a
path. -/
noncomputable def sampleDistribution (R : JaxRandom Key) (T : Tfp Key) (path : List Char) : Except Fail (Arr × Arr) :=
  match matchPat samplePat path with
  | some [name, n, seed] => do
    let ds ← lift (distributionAndPmis R T)
    let setup ← orRaise .keyError (ds.get (String.ofList name))
    let seed ← orRaise .valueError (pyInt seed)
    let n ← orRaise .valueError (pyInt n)
    lift (setup.1.sample n (R.prngKey seed))
  | _ => .error .noRule

/-- A line of `estimates.csv` (/repo/workflows/projects/Mixtures/how_good_integration_is.smk:151-156). -/
structure Row where
  estimator : String
  setup : String
  estimate : EReal
  nPoints : ℤ

/-- Rule `apply_estimator` (/repo/workflows/projects/Mixtures/how_good_integration_is.smk:139-159): the dictionary saved for a
path. -/
noncomputable def applyEstimator (R : JaxRandom Key) (T : Tfp Key) (path : List Char) : Except Fail Row :=
  match matchPat estimatePat path with
  | some [name, est, n, seed] => do
    let samples ← sampleDistribution R T (fill samplePat [name, n, seed])
    let ds ← lift (distributionAndPmis R T)
    let setup ← orRaise .keyError (ds.get (String.ofList name))
    let estimator ← orRaise .keyError (estimators.get (String.ofList est))
    let estimate := estimator setup.2 samples.1 samples.2
    let n ← orRaise .valueError (pyInt n)
    .ok ⟨String.ofList est, String.ofList name, estimate, n⟩
  | _ => .error .noRule

/-- Rule `assemble_estimates` (/repo/workflows/projects/Mixtures/how_good_integration_is.smk:161-170) for a setup. -/
noncomputable def assembleEstimates (R : JaxRandom Key) (T : Tfp Key) (setup : String) : Except Fail (List Row) :=
  (nPoints.flatMap fun n : ℕ => seeds.flatMap fun seed : ℕ => (estimators.map Prod.fst).map fun est =>
    fill estimatePat [setup.toList, est.toList, intStr n, intStr seed]).mapM (applyEstimator R T)

/-- Rule `estimate_ground_truth_single_seed` (/repo/workflows/projects/Mixtures/how_good_integration_is.smk:199-214): the fields
`mi` and `mi_stderr`. -/
noncomputable def groundTruthSeed (R : JaxRandom Key) (T : Tfp Key) (path : List Char) : Except Fail (EReal × ℝ) :=
  match matchPat truthPat path with
  | some [name, seed] => do
    let ds ← lift (distributionAndPmis R T)
    let setup ← orRaise .keyError (ds.get (String.ofList name))
    let seed ← orRaise .valueError (pyInt seed)
    lift (monteCarloMiEstimate (R.prngKey seed) setup.1 100000)
  | _ => .error .noRule

/-- Rule `estimate_ground_truth` (/repo/workflows/projects/Mixtures/how_good_integration_is.smk:173-196): the field `mi_mean`,
which is the dotted line of the figure (line 247). -/
noncomputable def groundTruth (R : JaxRandom Key) (T : Tfp Key) (setup : String) : Except Fail EReal := do
  let estimates ← (List.range 10).mapM fun seed : ℕ => groundTruthSeed R T (fill truthPat [setup.toList, intStr seed])
  .ok (Bmm.mean (estimates.map Prod.fst))

end BMI.Integration
