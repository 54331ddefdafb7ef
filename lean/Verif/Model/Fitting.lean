import Verif.Model.MixtureTasks
import Verif.Model.Gmm
import Verif.Model.Workflow

/-!
Model of the example distributions (/repo/workflows/projects/Mixtures/example_distributions.py) and of the workflow that fits Gaussian
mixtures to them (/repo/workflows/projects/Mixtures/fitting_gmm.smk).  A rule is a function from the path of its output to the content;
inputs are made by the rules that make them.  The sampler of NumPyro is a parameter.  Of a figure the points, the numbers in the
histograms, the lines and the range of the axis are kept; bins, colours and labels are left out.
-/

namespace BMI.Fitting

open BMI.Samplers BMI.Bmm BMI.Student BMI.MatrixUtils BMI.MixtureTasks BMI.Gmm BMI.Workflow
open BMI.Run (Dict)

variable {Key : Type}

/-! ## Example distributions -/

/-- `ExampleDistribution` (/repo/workflows/projects/Mixtures/example_distributions.py:12-24). -/
structure ExampleDistribution (Key : Type) where
  dist : JointDistribution Key
  sampler : Sampler Key

/-- `create_x_distribution` (/repo/workflows/projects/Mixtures/example_distributions.py:27-42). -/
noncomputable def createX (R : JaxRandom Key) (T : Tfp Key) (size : ℤ := 100) : Except Err (ExampleDistribution Key) := do
  let components ← [(-1 : ℝ), 1].mapM fun x => do
    let c ← canonicalCorrelation [x * 0.9] 0
    multivariateNormalDistribution R T 1 1 ((rowsOf c).map (·.map (0.3 * ·))) (some (List.replicate 2 0))
  let xDist ← mixture T [0.5, 0.5] components
  let xSampler ← bmmSampler xDist none (.seed 0) size
  .ok ⟨xDist, asSampler R xSampler⟩

/-- `create_galaxy_distribution` (/repo/workflows/projects/Mixtures/example_distributions.py:45-69). -/
noncomputable def createGalaxy (R : JaxRandom Key) (T : Tfp Key) (size : ℤ := 100) : Except Err (ExampleDistribution Key) := do
  let components ← [(-1 : ℝ), 1].mapM fun x => do
    let c ← canonicalCorrelation [0.0] 1
    multivariateNormalDistribution R T 2 1 (rowsOf c) (some ([x, x, x].map (· * 1.5)))
  let balls ← mixture T [0.5, 0.5] components
  let base ← bmmSampler balls none (.seed 0) size
  let tx ← spiral ⟨2, 2, !![0, -1; 1, 0]⟩ none 0.5
  let aux ← transformed (asSampler R base) (.row tx.row) .none 0 0
  let sampler ← transformed aux (.row (·.map (0.3 * ·))) .none 0 0
  .ok ⟨balls, sampler⟩

/-- `create_ai_distribution` (/repo/workflows/projects/Mixtures/example_distributions.py:72-125): the means and the covariance
matrices are those of `task_ai`. -/
noncomputable def createAi (R : JaxRandom Key) (T : Tfp Key) (size : ℤ := 100) : Except Err (ExampleDistribution Key) := do
  let components ← aiComponents.mapM fun c => multivariateNormalDistribution R T 1 1 c.2 (some c.1)
  let aiDist ← mixture T (List.replicate 6 (1 / 6)) components
  let aiSampler ← bmmSampler aiDist none (.seed 0) size
  .ok ⟨aiDist, asSampler R aiSampler⟩

/-- `create_waves_distribution` (/repo/workflows/projects/Mixtures/example_distributions.py:128-152). -/
noncomputable def createWaves (R : JaxRandom Key) (T : Tfp Key) (nComponents : ℤ := 12) (size : ℤ := 100) :
    Except Err (ExampleDistribution Key) :=
  if ¬ nComponents > 0 then .error .assertionError
  else do
    let components ← (List.range nComponents.toNat).mapM fun x : ℕ =>
      multivariateNormalDistribution R T 2 1 (diag [0.1, 1.0, 0.1]) (some ([(x : ℝ), 0, ((x % 4 : ℕ) : ℝ)].map (· * 1.5)))
    let fence ← mixture T ((List.replicate nComponents.toNat (1 : ℝ)).map (· / nComponents)) components
    let base ← bmmSampler fence none (.seed 0) size
    let aux ← transformed (asSampler R base) (.row (waves 5.0 3)) .none 0 0
    let sampler ← transformed aux (.row wavesShrink) .none 0 0
    .ok ⟨fence, sampler⟩

/-! ## The workflow -/

/-- `DISTRIBUTIONS` (/repo/workflows/projects/Mixtures/fitting_gmm.smk:110-115). -/
noncomputable def distributions (R : JaxRandom Key) (T : Tfp Key) : Except Err (Dict (ExampleDistribution Key)) := do
  let galaxy ← createGalaxy R T (size := 3)
  let ai ← createAi R T (size := 3)
  let waves ← createWaves R T (size := 3)
  let x ← createX R T (size := 3)
  .ok [("Galaxy", galaxy), ("AI", ai), ("Waves", waves), ("X", x)]

/-- `POSTERIOR_RANGES` (/repo/workflows/projects/Mixtures/fitting_gmm.smk:117-122). -/
noncomputable def posteriorRanges : Dict (ℝ × ℝ) := [("X", (0, 1)), ("AI", (0, 1)), ("Waves", (0, 1.5)), ("Galaxy", (0, 1))]

/-- Wildcards with dashes between them, then the extension
(/repo/workflows/projects/Mixtures/fitting_gmm.smk:137,152,201,265,274,289,315). -/
def dashed (ext : List Char) : ℕ → List Tok
  | 0 => [.wild, .lit ext]
  | k + 1 => .wild :: .lit ['-'] :: dashed ext k

/-- `"data/{dist_name}-{n_points}.npz"` (/repo/workflows/projects/Mixtures/fitting_gmm.smk:137,151,199). -/
def dataPat : List Tok := .lit "data/".toList :: dashed ".npz".toList 1

/-- `"gmm_fit/{dist_name}-{n_points}-{n_components}.npz"` (/repo/workflows/projects/Mixtures/fitting_gmm.smk:152,290,314). -/
def fitPat : List Tok := .lit "gmm_fit/".toList :: dashed ".npz".toList 2

/-- `"pmi_true/{dist_name}-{n_points}.npz"` (/repo/workflows/projects/Mixtures/fitting_gmm.smk:197,265). -/
def truePat : List Tok := .lit "pmi_true/".toList :: dashed ".npz".toList 1

/-- `"pmi_individual/{dist_name}-{n_points}-{n_components}-{sample_index}.npz"`
(/repo/workflows/projects/Mixtures/fitting_gmm.smk:275,315). -/
def individualPat : List Tok := .lit "pmi_individual/".toList :: dashed ".npz".toList 3

/-- `"pmi_collected/{dist_name}-{n_points}-{n_components}.npz"` (/repo/workflows/projects/Mixtures/fitting_gmm.smk:198,274). -/
def collectedPat : List Tok := .lit "pmi_collected/".toList :: dashed ".npz".toList 2

/-- `"approx_samples/{dist_name}-{n_points}-{n_components}-{sample_index}.npz"`
(/repo/workflows/projects/Mixtures/fitting_gmm.smk:200,289). -/
def approxPat : List Tok := .lit "approx_samples/".toList :: dashed ".npz".toList 3

/-- `"plots/{dist_name}-{n_points}-{n_components}.pdf"` (/repo/workflows/projects/Mixtures/fitting_gmm.smk:201). -/
def plotPat : List Tok := .lit "plots/".toList :: dashed ".pdf".toList 2

/-- Rule `sample_dist` (/repo/workflows/projects/Mixtures/fitting_gmm.smk:136-147).  Negative numbers of points, like zero, raise
`ValueError`. -/
noncomputable def sampleDist (R : JaxRandom Key) (T : Tfp Key) (path : List Char) : Except Fail (Arr × Arr) :=
  match matchPat dataPat path with
  | some [name, n] => do
    let ds ← lift (distributions R T)
    let example_ ← orRaise .keyError (ds.get (String.ofList name))
    let nPoints ← orRaise .valueError (pyInt n)
    lift (example_.sampler.sample nPoints.toNat (.seed 0))
  | _ => .error .noRule

/-- `MCMC(NUTS(model), ...).run(key, data=...)` and `get_samples()` (/repo/workflows/projects/Mixtures/fitting_gmm.smk:161-165): from
the key, the prior, the data and the numbers of samples and of warm-up steps. -/
abbrev Nuts (Key : Type) : Type := Key → (p : Prior) → (data : Arr) → (numSamples numWarmup : ℕ) →
  Except Err (List (Latent p.concentration.length p.dim))

/-- Rule `fit_model` (/repo/workflows/projects/Mixtures/fitting_gmm.smk:150-169).  `model` (lines 32-79) is that of
`Verif/Model/Gmm.lean` with another default for the jitter.  A negative number of components is refused by `jnp.ones`. -/
noncomputable def fitModel (nuts : Nuts Key) (R : JaxRandom Key) (T : Tfp Key) (path : List Char) : Except Fail (List Draw) :=
  match matchPat fitPat path with
  | some [name, n, k] => do
    let arrays ← sampleDist R T (fill dataPat [name, n])
    let nComponents ← orRaise .valueError (pyInt k)
    let pts ← lift (hstack [arrays.1, arrays.2])
    if nComponents < 0 then .error (.raised .valueError)
    else do
      let prior ← lift (model (pts.headD []).length nComponents.toNat none (jitter := 1e-6))
      let latents ← lift (nuts (R.prngKey 1024) prior pts 800 2000)
      .ok (latents.map (Latent.draw prior.jitter))
  | _ => .error .noRule

/-- An element of an array along the first axis (/repo/workflows/projects/Mixtures/fitting_gmm.smk:301-303,326-328). -/
def npIndex {α : Type} (l : List α) (i : ℤ) : Option α :=
  if i < -l.length then none else if i < 0 then l[(i + l.length).toNat]? else l[i.toNat]?

/-- The distribution made from a sample of the posterior
(/repo/workflows/projects/Mixtures/fitting_gmm.smk:292-306 and 317-331).  `sample_into_bmm_distribution` (lines 82-108) is the function
of /repo/src/bmi/estimators/external/gmm.py. -/
noncomputable def approxDist (nuts : Nuts Key) (R : JaxRandom Key) (T : Tfp Key) (name n k i : List Char) :
    Except Fail (JointDistribution Key) := do
  let samples ← fitModel nuts R T (fill fitPat [name, n, k])
  let ds ← lift (distributions R T)
  let trueDistribution ← orRaise .keyError (ds.get (String.ofList name))
  let idx ← orRaise .valueError (pyInt i)
  let s ← orRaise .indexError (npIndex samples idx)
  lift (sampleIntoBmm R T s.mu s.cov s.pi trueDistribution.dist.dimX trueDistribution.dist.dimY)

/-- Rule `create_approx_sample` (/repo/workflows/projects/Mixtures/fitting_gmm.smk:287-309). -/
noncomputable def createApproxSample (nuts : Nuts Key) (R : JaxRandom Key) (T : Tfp Key) (path : List Char) : Except Fail (Arr × Arr) :=
  match matchPat approxPat path with
  | some [name, n, k, i] => do
    let d ← approxDist nuts R T name n k i
    let nPoints ← orRaise .valueError (pyInt n)
    lift (d.sample nPoints (R.prngKey 2048))
  | _ => .error .noRule

/-- Rule `estimate_pmi_in_sample` (/repo/workflows/projects/Mixtures/fitting_gmm.smk:312-336). -/
noncomputable def estimatePmi (nuts : Nuts Key) (R : JaxRandom Key) (T : Tfp Key) (path : List Char) : Except Fail (List EReal) :=
  match matchPat individualPat path with
  | some [name, n, k, i] => do
    let d ← approxDist nuts R T name n k i
    let xy ← lift (d.sample 100000 (R.prngKey 2048))
    lift (d.pmi xy.1 xy.2)
  | _ => .error .noRule

/-- Rule `collect_pmi_profiles` (/repo/workflows/projects/Mixtures/fitting_gmm.smk:273-284). -/
noncomputable def collectPmi (nuts : Nuts Key) (R : JaxRandom Key) (T : Tfp Key) (path : List Char) :
    Except Fail (List (List EReal)) :=
  match matchPat collectedPat path with
  | some [name, n, k] => (List.range 800).mapM fun (i : ℕ) => estimatePmi nuts R T (fill individualPat [name, n, k, intStr i])
  | _ => .error .noRule

/-- Rule `get_pmi_true` (/repo/workflows/projects/Mixtures/fitting_gmm.smk:264-270). -/
noncomputable def truePmi (R : JaxRandom Key) (T : Tfp Key) (path : List Char) : Except Fail (List EReal) :=
  match matchPat truePat path with
  | some [name, _] => do
    let ds ← lift (distributions R T)
    let example_ ← orRaise .keyError (ds.get (String.ofList name))
    let xy ← lift (example_.dist.sample 100000 (R.prngKey 2048))
    lift (example_.dist.pmi xy.1 xy.2)
  | _ => .error .noRule

/-- `visualise_points` (/repo/workflows/projects/Mixtures/fitting_gmm.smk:172-193): the points in the plane, each with the number that
gives its colour; black points have none. -/
noncomputable def visualisePoints (xs ys : Arr) : Except Err (List ((ℝ × ℝ) × Option ℝ)) :=
  if ¬ xs.length = ys.length then .error .assertionError
  else if ¬ (ys.headD []).length = 1 then .error .assertionError
  else if (xs.headD []).length = 2 then
    .ok (List.zipWith (fun x y => ((x.getD 0 0, x.getD 1 0), some (y.getD 0 0))) xs ys)
  else if (xs.headD []).length = 1 then .ok (List.zipWith (fun x y => ((x.getD 0 0, y.getD 0 0), none)) xs ys)
  else .error .valueError

/-- A figure (/repo/workflows/projects/Mixtures/fitting_gmm.smk:202-262). -/
structure Figure where
  /-- lines 211-214 -/
  truePoints : List ((ℝ × ℝ) × Option ℝ)
  /-- lines 217-220 -/
  approxPoints : List ((ℝ × ℝ) × Option ℝ)
  /-- line 229 -/
  posterior : List EReal
  /-- line 233 -/
  range : ℝ × ℝ
  /-- line 236 -/
  posteriorMean : EReal
  /-- line 237 -/
  trueMi : EReal
  /-- lines 250-252: the profiles in red -/
  profiles : List (List EReal)
  /-- lines 254-255: the profile in black -/
  trueProfile : List EReal

/-- Rule `plot_pdf` (/repo/workflows/projects/Mixtures/fitting_gmm.smk:195-262). -/
noncomputable def plotPdf (nuts : Nuts Key) (R : JaxRandom Key) (T : Tfp Key) (path : List Char) : Except Fail Figure :=
  match matchPat plotPat path with
  | some [name, n, k] => do
    let pmiTrue ← truePmi R T (fill truePat [name, n])
    let pmiApprox ← collectPmi nuts R T (fill collectedPat [name, n, k])
    let trueSample ← sampleDist R T (fill dataPat [name, n])
    let approxSample ← createApproxSample nuts R T (fill approxPat [name, n, k, ['0']])
    let truePoints ← lift (visualisePoints trueSample.1 trueSample.2)
    let approxPoints ← lift (visualisePoints approxSample.1 approxSample.2)
    let miTrue := Bmm.mean pmiTrue
    let miApprox := pmiApprox.map Bmm.mean
    let range ← orRaise .keyError (posteriorRanges.get (String.ofList name))
    .ok
      { truePoints := truePoints
        approxPoints := approxPoints
        posterior := miApprox
        range := range
        posteriorMean := Bmm.mean miApprox
        trueMi := miTrue
        profiles := pmiApprox
        trueProfile := pmiTrue }
  | _ => .error .noRule

/-- Rule `all` (/repo/workflows/projects/Mixtures/fitting_gmm.smk:125-128). -/
def wanted : List (List Char) :=
  ["AI", "Galaxy"].map fun d => "plots/".toList ++ d.toList ++ "-500-10.pdf".toList

/-- Rule `plots_all` (/repo/workflows/projects/Mixtures/fitting_gmm.smk:131-133). -/
def wantedAll (names : List String) : List (List Char) :=
  names.flatMap fun d => ([125, 250, 500, 1000] : List ℤ).map fun n =>
    "plots/".toList ++ d.toList ++ "-".toList ++ intStr n ++ "-10.pdf".toList

end BMI.Fitting
