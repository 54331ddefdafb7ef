import Verif.Model.Bmm
import Verif.Model.Transforms
import Verif.Model.MatrixUtils

/-!
# Model of the mixture tasks (/repo/src/bmi/benchmark/tasks/mixtures.py)

The functions give the sampler of the task; the identifiers are in `Verif/Model/TaskIds.lean`.
-/

namespace BMI.MixtureTasks

open BMI.Samplers BMI.Bmm BMI.Student BMI.MatrixUtils

variable {Key : Type}

/-- `jnp.diag(jnp.array(l))` (/repo/src/bmi/benchmark/tasks/mixtures.py:157 and 200) and `np.diag(l)` (lines 58, 64, 70
and 77). -/
noncomputable def diag (l : List ℝ) : Arr := rowsOf fun i j : Fin l.length => if i = j then l.get i else 0

/-- The sampler of `task_x` (/repo/src/bmi/benchmark/tasks/mixtures.py:12-39). -/
noncomputable def taskX (R : JaxRandom Key) (T : Tfp Key) (correlation : ℝ) (size : ℤ) : Except Err (BmmSampler Key) := do
  let components ← [(-1 : ℝ), 1].mapM fun x => do
    let covariance ← canonicalCorrelation [x * correlation] 0
    multivariateNormalDistribution R T 1 1 (rowsOf covariance) (some [0, 0])
  let dist ← mixture T [0.5, 0.5] components
  bmmSampler dist none (.seed 0) size

/-- The mean and the covariance matrix of the six components of `task_ai`
(/repo/src/bmi/benchmark/tasks/mixtures.py:47-94). -/
noncomputable def aiComponents : List (List ℝ × Arr) :=
  let corr := 0.95
  let varX := 0.04
  [([1.0, 0.0], diag [0.01, 0.2]),
   ([1.0, 1], diag [0.05, 0.001]),
   ([1.0, -1], diag [0.05, 0.001]),
   ([-0.8, -0.2], diag [0.03, 0.001]),
   ([-1.2, 0.0], [[varX, √(varX * 0.2) * corr], [√(varX * 0.2) * corr, 0.2]]),
   ([-0.4, 0.0], [[varX, -√(varX * 0.2) * corr], [-√(varX * 0.2) * corr, 0.2]])]

/-- The sampler of `task_ai` (/repo/src/bmi/benchmark/tasks/mixtures.py:42-103). -/
noncomputable def taskAi (R : JaxRandom Key) (T : Tfp Key) (size : ℤ) : Except Err (BmmSampler Key) := do
  let components ← aiComponents.mapM fun c => multivariateNormalDistribution R T 1 1 c.2 (some c.1)
  let dist ← mixture T (List.replicate 6 (1 / 6)) components
  bmmSampler dist none (.seed 0) size

/-- A `BMMSampler` as the base of a `TransformedSampler` (/repo/src/bmi/samplers/_tfp/_wrapper.py:41-55).  The number is
taken to be a real one; an infinite estimate, which has probability zero, would be 0 here. -/
noncomputable def asSampler (R : JaxRandom Key) (s : BmmSampler Key) : Sampler Key where
  dimX := .ok s.dist.dimX
  dimY := .ok s.dist.dimY
  sample := fun n rng => s.sample R n rng
  mi := match (s.mutualInformation R).1 with
    | .ok v => v.toReal
    | .error _ => 0

/-- The base sampler and the sampler of `task_galaxy` (/repo/src/bmi/benchmark/tasks/mixtures.py:106-140). -/
noncomputable def taskGalaxy (R : JaxRandom Key) (T : Tfp Key) (speed distance : ℝ) (size : ℤ) :
    Except Err (BmmSampler Key × Sampler Key) := do
  let components ← [(-1 : ℝ), 1].mapM fun x => do
    let covariance ← canonicalCorrelation [0.0] 1
    multivariateNormalDistribution R T 2 1 (rowsOf covariance) (some ([x, x, x].map (· * distance / 2)))
  let balls ← mixture T [0.5, 0.5] components
  let base ← bmmSampler balls none (.seed 0) size
  let sampler ← galaxyTransforms (asSampler R base) speed
  .ok (base, sampler)

/-- The base sampler and the sampler of `task_waves` (/repo/src/bmi/benchmark/tasks/mixtures.py:143-184). -/
noncomputable def taskWaves (R : JaxRandom Key) (T : Tfp Key) (nComponents : ℤ) (amplitude frequency : ℝ) (size : ℤ) :
    Except Err (BmmSampler Key × Sampler Key) :=
  if ¬ nComponents > 0 then .error .assertionError
  else do
    let components ← (List.range nComponents.toNat).mapM fun x : ℕ =>
      multivariateNormalDistribution R T 2 1 (diag [0.1, 1.0, 0.1]) (some ([(x : ℝ), 0, ((x % 4 : ℕ) : ℝ)].map (· * 1.5)))
    let dist ← mixture T ((List.replicate nComponents.toNat (1 : ℝ)).map (· / nComponents)) components
    let base ← bmmSampler dist none (.seed 0) size
    let sampler ← wavesTransforms (asSampler R base) amplitude frequency
    .ok (base, sampler)

/-- The sampler of `task_concentric_multinormal` (/repo/src/bmi/benchmark/tasks/mixtures.py:187-217). -/
noncomputable def taskConcentric (R : JaxRandom Key) (T : Tfp Key) (dimX nComponents : ℤ) (size : ℤ) :
    Except Err (BmmSampler Key) :=
  if ¬ nComponents > 0 then .error .assertionError
  else do
    let components ← ((List.range nComponents.toNat).map (1 + ·)).mapM fun i : ℕ =>
      multivariateNormalDistribution R T dimX 1 (diag (List.replicate dimX.toNat ((i : ℝ) ^ 2) ++ [0.0001]))
        (some (List.replicate dimX.toNat 0.0 ++ [1.0 * (i : ℝ)]))
    let dist ← mixture T ((List.replicate nComponents.toNat (1 : ℝ)).map (· / nComponents)) components
    bmmSampler dist none (.seed 0) size

open Classical in
/-- The sampler of `task_multinormal_sparse_w_inliers` (/repo/src/bmi/benchmark/tasks/mixtures.py:220-269). -/
noncomputable def taskInliers (R : JaxRandom Key) (T : Tfp Key) (dimX dimY nInteracting : ℤ) (strength fraction : ℝ)
    (size : ℤ) : Except Err (BmmSampler Key) :=
  if ¬ (0 ≤ fraction ∧ fraction ≤ 1) then .error .assertionError
  else do
    let params ← gaussianLVM dimX dimY nInteracting 0 strength 1 none 0 none strength none
    let correlation ← params.correlation
    let signal ← multivariateNormalDistribution R T dimX dimY (rowsOf correlation) none
    let noise ← productDistribution T signal.distX signal.distY
    let dist ← mixture T [1 - fraction, fraction] [signal, noise]
    bmmSampler dist none (.seed 0) size

end BMI.MixtureTasks
