import Verif.Model.Bmm
import Verif.Model.KSG

/-!
Model of the Bayesian estimator with Gaussian mixtures (/repo/src/bmi/estimators/external/gmm.py).

NumPyro is not part of the repository: sampling from the posterior is a parameter (`Lib.nuts`), which is given the prior and
the data that `model` describes.  Keys of `jax.random` are elements of an arbitrary type.  Numbers of components and samples
are natural numbers; pydantic's coercions are left out.
-/

namespace BMI.Gmm

open BMI.Samplers BMI.Bmm BMI.KSG

/-- The priors in `model` (/repo/src/bmi/estimators/external/gmm.py:47-73). -/
structure Prior where
  /-- line 52 -/
  concentration : List ℝ
  dim : ℕ
  /-- line 57: the scale of the means is `meanScale` times the identity -/
  meanScale : ℝ
  /-- line 63 -/
  tauScale : ℝ
  /-- line 68 -/
  lkjConc : ℝ
  /-- line 69 -/
  jitter : ℝ

/-- One sample from the posterior: "pi", "mu", "tau" (transposed), "L_omega"
(/repo/src/bmi/estimators/external/gmm.py:52,56,63,68). -/
structure Latent (K d : ℕ) where
  pi : Fin K → ℝ
  mu : Fin K → Fin d → ℝ
  tau : Fin K → Fin d → ℝ
  omega : Fin K → Matrix (Fin d) (Fin d) ℝ

/-- `L_scaled` (/repo/src/bmi/estimators/external/gmm.py:69). -/
def scaled {d : ℕ} (jitter : ℝ) (tau : Fin d → ℝ) (omega : Matrix (Fin d) (Fin d) ℝ) : Matrix (Fin d) (Fin d) ℝ :=
  Matrix.of fun i j => tau i * omega i j + jitter * if i = j then 1 else 0

/-- `cov_matrix` (/repo/src/bmi/estimators/external/gmm.py:71). -/
def covMatrix {d : ℕ} (jitter : ℝ) (tau : Fin d → ℝ) (omega : Matrix (Fin d) (Fin d) ℝ) : Matrix (Fin d) (Fin d) ℝ :=
  scaled jitter tau omega * (scaled jitter tau omega).transpose

/-- A component of the likelihood, `MultivariateNormal(mu, scale_tril=L_scaled)`
(/repo/src/bmi/estimators/external/gmm.py:79): the point for standard normal noise `u`. -/
def component {d : ℕ} (mu : Fin d → ℝ) (scale : Matrix (Fin d) (Fin d) ℝ) (u : Fin d → ℝ) : Fin d → ℝ :=
  mu + scale.mulVec u

/-- `model` (/repo/src/bmi/estimators/external/gmm.py:29-82): the prior for data of dimension `d`.  `alpha or 1.0 / K` is
`1.0 / K` also for `alpha` zero. -/
noncomputable def model (d : ℕ) (K : ℕ := 10) (alpha : Option ℝ := none) (jitter : ℝ := 1e-3) (lkjConc : ℝ := 1) :
    Except Err Prior := do
  let alpha ← if alpha.getD 0 ≠ 0 then .ok (alpha.getD 0) else if K = 0 then .error .zeroDivision else .ok (1 / (K : ℝ))
  .ok { concentration := List.replicate K (alpha * 1), dim := d, meanScale := 3, tauScale := 1, lkjConc := lkjConc, jitter := jitter }

/-- What `mcmc.get_samples()` holds for one sample: "mu", "cov", "pi"
(/repo/src/bmi/estimators/external/gmm.py:200-206). -/
structure Draw where
  mu : Arr
  cov : List Arr
  pi : List ℝ

/-- The sites of one sample (/repo/src/bmi/estimators/external/gmm.py:52-72). -/
def Latent.draw {K d : ℕ} (jitter : ℝ) (l : Latent K d) : Draw where
  mu := rowsOf l.mu
  cov := List.ofFn fun k => rowsOf (covMatrix jitter (l.tau k) (l.omega k))
  pi := List.ofFn l.pi

/-- Libraries: `jax.random`, and NumPyro if it is installed (/repo/src/bmi/estimators/external/gmm.py:11-16,166,185-191).
`choice k n m` are the indices given by `jax.random.choice(k, n, shape=(m,), replace=False)`. -/
structure Lib (Key : Type) where
  prngKey : ℤ → Key
  split : Key → Key × Key
  choice : Key → (n m : ℕ) → List ℕ
  nuts : Option (Key → (p : Prior) → (data : Arr) → (numSamples numWarmup : ℕ) →
    Except Err (List (Latent p.concentration.length p.dim)))

/-- `GMMEstimatorParams` (/repo/src/bmi/estimators/external/gmm.py:113-137). -/
structure Params where
  standardize : Bool
  nComponents : ℕ
  alpha : Option ℝ
  mcmcNumWarmup : ℕ
  mcmcNumSamples : ℕ
  miEstimateNumSamples : ℤ
  nThinnedSamples : ℕ

/-- `GMMEstimator` (/repo/src/bmi/estimators/external/gmm.py:140-170).  `used` is a record of the keys handed to
library functions, for the statements only. -/
structure Estimator (Key : Type) where
  params : Params
  key : Key
  dimX : ℤ
  dimY : ℤ
  mcmc : Option (List Draw)
  used : List Key

variable {Key : Type}

/-- `GMMEstimator.__init__` (/repo/src/bmi/estimators/external/gmm.py:141-170). -/
def create (lib : Lib Key) (key : ℤ := 0) (nComponents : ℕ := 10) (alpha : Option ℝ := none) (standardize : Bool := true)
    (mcmcNumWarmup : ℕ := 1000) (mcmcNumSamples : ℕ := 1000) (miEstimateNumSamples : ℤ := 1000)
    (nThinnedSamples : Option ℕ := none) : Estimator Key where
  params :=
    { standardize := standardize
      nComponents := nComponents
      alpha := alpha
      mcmcNumWarmup := mcmcNumWarmup
      mcmcNumSamples := mcmcNumSamples
      miEstimateNumSamples := miEstimateNumSamples
      nThinnedSamples := nThinnedSamples.getD mcmcNumSamples }
  key := lib.prngKey key
  dimX := -1
  dimY := -1
  mcmc := none
  used := []

/-- `self.key, key = jax.random.split(self.key)` (/repo/src/bmi/estimators/external/gmm.py:178,212,227). -/
def Estimator.advance (lib : Lib Key) (e : Estimator Key) : Key × Estimator Key :=
  let s := lib.split e.key
  (s.2, { e with key := s.1, used := e.used ++ [s.2] })

/-- Rows of `space.xy` (/repo/src/bmi/estimators/external/gmm.py:189). -/
def xyRows (mx my : PSpace.Mat) : Arr :=
  List.zipWith (· ++ ·) (rowsOf mx.v) (rowsOf my.v)

/-- `run_mcmc` (/repo/src/bmi/estimators/external/gmm.py:175-194), with the estimator after the call. -/
noncomputable def Estimator.runMcmc (lib : Lib Key) (ε : ℝ) (e : Estimator Key) (x y : PSpace.Mat) :
    Except Err Unit × Estimator Key :=
  match KSG.space ε e.params.standardize x y with
  | .error er => (.error er, e)
  | .ok (mx, my) =>
    let a := e.advance lib
    match lib.nuts with
    | none => (.error .importError, a.2)
    | some nuts =>
      match model (mx.d + my.d) (K := e.params.nComponents) with
      | .error er => (.error er, a.2)
      | .ok prior =>
        match nuts a.1 prior (xyRows mx my) e.params.mcmcNumSamples e.params.mcmcNumWarmup with
        | .error er => (.error er, a.2)
        | .ok latents =>
          (.ok (), { a.2 with mcmc := some (latents.map (Latent.draw prior.jitter)), dimX := mx.d, dimY := my.d })

/-- `sample_into_bmm_distribution` (/repo/src/bmi/estimators/external/gmm.py:85-110). -/
noncomputable def sampleIntoBmm (R : JaxRandom Key) (T : Tfp Key) (means : Arr) (covariances : List Arr) (proportions : List ℝ)
    (dimX dimY : ℤ) : Except Err (JointDistribution Key) := do
  let nComponents := proportions.length
  let nDims := dimX + dimY
  if ¬ (means.length = nComponents ∧ ∀ m ∈ means, (m.length : ℤ) = nDims) then .error .assertionError
  else if ¬ (covariances.length = nComponents ∧
      ∀ c ∈ covariances, (c.length : ℤ) = nDims ∧ ∀ r ∈ c, (r.length : ℤ) = nDims) then .error .assertionError
  else do
    let components ← (means.zip covariances).mapM fun mc => multivariateNormalDistribution R T dimX dimY mc.2 (some mc.1)
    mixture T proportions components

/-- `samples["mu"][idx]` (/repo/src/bmi/estimators/external/gmm.py:200-204): negative indices count from the end, and JAX
clamps indices outside of the array. -/
def jaxIndex (n : ℕ) (i : ℤ) : ℕ :=
  let i := if i < 0 then i + n else i
  (max 0 (min i (n - 1))).toNat

/-- `get_bmm_distribution` (/repo/src/bmi/estimators/external/gmm.py:196-207). -/
noncomputable def Estimator.getBmmDistribution (R : JaxRandom Key) (T : Tfp Key) (e : Estimator Key) (idx : ℤ) :
    Except Err (JointDistribution Key) :=
  match e.mcmc with
  | none => .error .valueError
  | some samples =>
    match samples[jaxIndex samples.length idx]? with
    | none => .error .indexError
    | some d => sampleIntoBmm R T d.mu d.cov d.pi e.dimX e.dimY

/-- `get_sample_mi` (/repo/src/bmi/estimators/external/gmm.py:209-217). -/
noncomputable def Estimator.getSampleMi (lib : Lib Key) (R : JaxRandom Key) (T : Tfp Key) (e : Estimator Key) (idx : ℤ)
    (mcSamples : Option ℤ := none) (key : Option Key := none) : Except Err EReal × Estimator Key :=
  let mcSamples := mcSamples.getD e.params.miEstimateNumSamples
  let ke := match key with
    | some k => (k, e)
    | none => e.advance lib
  let r : Except Err EReal := do
    let distribution ← ke.2.getBmmDistribution R T idx
    let mi ← monteCarloMiEstimate ke.1 distribution mcSamples
    .ok mi.1
  (r, ke.2)

/-- The loop over the indices (/repo/src/bmi/estimators/external/gmm.py:232). -/
noncomputable def Estimator.sampleMis (lib : Lib Key) (R : JaxRandom Key) (T : Tfp Key) (e : Estimator Key) :
    List ℕ → Except Err (List EReal) × Estimator Key
  | [] => (.ok [], e)
  | i :: is =>
    match e.getSampleMi lib R T i with
    | (.error er, e) => (.error er, e)
    | (.ok v, e) =>
      match e.sampleMis lib R T is with
      | (.error er, e) => (.error er, e)
      | (.ok vs, e) => (.ok (v :: vs), e)

/-- `get_posterior_mi` (/repo/src/bmi/estimators/external/gmm.py:219-233). -/
noncomputable def Estimator.getPosteriorMi (lib : Lib Key) (R : JaxRandom Key) (T : Tfp Key) (ε : ℝ) (e : Estimator Key)
    (x y : PSpace.Mat) (nThinned : Option ℕ := none) : Except Err (List EReal) × Estimator Key :=
  match e.runMcmc lib ε x y with
  | (.error er, e) => (.error er, e)
  | (.ok (), e) =>
    let nThinned := nThinned.getD e.params.nThinnedSamples
    let a := e.advance lib
    if nThinned = 0 then (.ok [], a.2)
    else if e.params.mcmcNumSamples < nThinned then (.error .valueError, a.2)
    else a.2.sampleMis lib R T (lib.choice a.1 e.params.mcmcNumSamples nThinned)

/-- `estimate` (/repo/src/bmi/estimators/external/gmm.py:235-239); the mean of no numbers is NaN (`none`). -/
noncomputable def Estimator.estimate (lib : Lib Key) (R : JaxRandom Key) (T : Tfp Key) (ε : ℝ) (e : Estimator Key)
    (x y : PSpace.Mat) (nThinned : Option ℕ := none) : Except Err (Option EReal) × Estimator Key :=
  match e.getPosteriorMi lib R T ε x y nThinned with
  | (.error er, e) => (.error er, e)
  | (.ok mis, e) => (.ok (if mis = [] then none else some (mean mis)), e)

/-- A call of a method (/repo/src/bmi/estimators/external/gmm.py:172-239). -/
inductive Call (Key : Type) where
  | parameters
  | runMcmc (x y : PSpace.Mat)
  | getBmmDistribution (idx : ℤ)
  | getSampleMi (idx : ℤ) (mcSamples : Option ℤ) (key : Option Key)
  | getPosteriorMi (x y : PSpace.Mat) (nThinned : Option ℕ)
  | estimate (x y : PSpace.Mat) (nThinned : Option ℕ)

/-- The result of a call. -/
inductive Reply (Key : Type) where
  | parameters (p : Params)
  | done (r : Except Err Unit)
  | distribution (r : Except Err (JointDistribution Key))
  | number (r : Except Err EReal)
  | numbers (r : Except Err (List EReal))
  | estimate (r : Except Err (Option EReal))

/-- One call (/repo/src/bmi/estimators/external/gmm.py:172-239). -/
noncomputable def Estimator.call (lib : Lib Key) (R : JaxRandom Key) (T : Tfp Key) (ε : ℝ) (e : Estimator Key) :
    Call Key → Reply Key × Estimator Key
  | .parameters => (.parameters e.params, e)
  | .runMcmc x y => let r := e.runMcmc lib ε x y; (.done r.1, r.2)
  | .getBmmDistribution idx => (.distribution (e.getBmmDistribution R T idx), e)
  | .getSampleMi idx m k => let r := e.getSampleMi lib R T idx m k; (.number r.1, r.2)
  | .getPosteriorMi x y m => let r := e.getPosteriorMi lib R T ε x y m; (.numbers r.1, r.2)
  | .estimate x y m => let r := e.estimate lib R T ε x y m; (.estimate r.1, r.2)

/-- A sequence of calls (/repo/src/bmi/estimators/external/gmm.py:172-239). -/
noncomputable def Estimator.calls (lib : Lib Key) (R : JaxRandom Key) (T : Tfp Key) (ε : ℝ) (e : Estimator Key) :
    List (Call Key) → List (Reply Key) × Estimator Key
  | [] => ([], e)
  | c :: cs =>
    let r := e.call lib R T ε c
    let rs := r.2.calls lib R T ε cs
    (r.1 :: rs.1, rs.2)

end BMI.Gmm
