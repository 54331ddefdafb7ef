import Verif.Model.Basic
import Mathlib.Analysis.SpecialFunctions.Log.Basic
import Mathlib.Analysis.SpecialFunctions.Pow.Real
import Mathlib.Analysis.SpecialFunctions.Trigonometric.Basic
import Mathlib.LinearAlgebra.Matrix.Charpoly.Basic
import Mathlib.LinearAlgebra.Matrix.Determinant.Basic
import Mathlib.NumberTheory.Harmonic.EulerMascheroni
import Mathlib.Algebra.Polynomial.Roots
import Mathlib.Data.Complex.Basic

/-!
# Model of the samplers (/repo/src/bmi/samplers)

Arrays of samples are lists of rows of real numbers; floats are real numbers.  `jax.random` enters as a record of
functions (`JaxRandom`); what is assumed about their laws is in `Verif/Spec/Samplers.lean`.
-/

namespace BMI.Samplers

/-- A two-dimensional array, as the list of its rows. -/
abbrev Arr := List (List ℝ)

/-- The array with entries `a i j`. -/
def rowsOf {n d : ℕ} (a : Fin n → Fin d → ℝ) : Arr := List.ofFn fun i => List.ofFn (a i)

/-- The argument `rng` of `sample`: an integer seed or a key (/repo/src/bmi/interface.py:72). -/
inductive Rng (Key : Type) where
  | seed (s : ℤ)
  | key (k : Key)

/-- The functions of `jax.random` used by the samplers, as parameters: `PRNGKey`, `split` (base.py:40,
_independent_coordinates.py:37), `uniform` (_additive_uniform.py:39-42), `randint`, `exponential`, `bernoulli`,
`poisson` (_discrete_continuous.py:65-66, 147-150) and `multivariate_normal` (_splitmultinormal.py:57-61), all in
/repo/src/bmi/samplers.  The types record the shapes requested from JAX. -/
structure JaxRandom (Key : Type) where
  prngKey : ℤ → Key
  split : Key → (m : ℕ) → Fin m → Key
  uniform : Key → (n d : ℕ) → (lo hi : ℝ) → Fin n → Fin d → ℝ
  randint : Key → (n d : ℕ) → (lo hi : ℤ) → Fin n → Fin d → ℤ
  exponential : Key → (n d : ℕ) → Fin n → Fin d → ℝ
  bernoulli : Key → (p : ℝ) → (n d : ℕ) → Fin n → Fin d → Bool
  poisson : Key → (n d : ℕ) → (Fin n → Fin d → ℝ) → Fin n → Fin d → ℕ
  multivariateNormal : Key → (n d : ℕ) → (Fin d → ℝ) → Matrix (Fin d) (Fin d) ℝ → Fin n → Fin d → ℝ

variable {Key : Type}

/-- `cast_to_rng` (/repo/src/bmi/samplers/base.py:36-42). -/
def castToRng (R : JaxRandom Key) : Rng Key → Key
  | .seed s => R.prngKey s
  | .key k => k

/-- A sampler object (`ISampler`, /repo/src/bmi/interface.py:69-108).  Reading a dimension may raise. -/
structure Sampler (Key : Type) where
  dimX : Except Err ℕ
  dimY : Except Err ℕ
  sample : ℕ → Rng Key → Except Err (Arr × Arr)
  mi : ℝ

/-- `_validate_dimensions` (/repo/src/bmi/samplers/base.py:11-16), called by `BaseSampler.__init__` (lines 22-25). -/
def validateDimensions (dimX dimY : ℤ) : Except Err Unit :=
  if dimX < 1 then .error .valueError
  else if dimY < 1 then .error .valueError
  else .ok ()

/-! ## TransformedSampler -/

/-- The `transform_x` argument and the `vectorise` flag (/repo/src/bmi/samplers/_transformed.py:41-45): nothing, a
function of one row (to be `vmap`ped), or a function of the whole array. -/
inductive Transform where
  | none
  | row (f : List ℝ → List ℝ)
  | batch (f : Arr → Arr)

/-- The transform that is stored (/repo/src/bmi/samplers/_transformed.py:72-79): the identity by default, `jax.vmap`
of a row function, or the given function. -/
def Transform.vectorized : Transform → Arr → Arr
  | .none, a => a
  | .row f, a => a.map f
  | .batch f, a => f a

/-- `TransformedSampler` (/repo/src/bmi/samplers/_transformed.py:38-107). -/
def transformed (base : Sampler Key) (tx ty : Transform) (addX addY : ℤ) : Except Err (Sampler Key) := do
  if addX < 0 ∨ addY < 0 then .error .valueError
  else do
    let dx ← base.dimX
    let dy ← base.dimY
    validateDimensions (dx + addX) (dy + addY)
    .ok { dimX := .ok (dx + addX).toNat
          dimY := .ok (dy + addY).toNat
          sample := fun n rng => do
            let xy ← base.sample n rng
            .ok (tx.vectorized xy.1, ty.vectorized xy.2)
          mi := base.mi }

/-! ## IndependentConcatenationSampler -/

/-- Two arrays side by side. -/
def hcat (a b : Arr) : Arr := List.zipWith (· ++ ·) a b

/-- `jnp.hstack` of two-dimensional arrays (used at /repo/src/bmi/samplers/_independent_coordinates.py:45): raises for
an empty list or for different numbers of rows. -/
def hstack : List Arr → Except Err Arr
  | [] => .error .valueError
  | [a] => .ok a
  | a :: b :: rest => do
      let r ← hstack (b :: rest)
      if a.length = r.length then .ok (hcat a r) else .error .valueError

/-- The loop of `IndependentConcatenationSampler.sample`
(/repo/src/bmi/samplers/_independent_coordinates.py:38-43), over the zipped keys and samplers. -/
def sampleAll (n : ℕ) : List (Key × Sampler Key) → Except Err (List Arr × List Arr)
  | [] => .ok ([], [])
  | (k, s) :: rest => do
      let xy ← s.sample n (.key k)
      let r ← sampleAll n rest
      .ok (xy.1 :: r.1, xy.2 :: r.2)

/-- `sum(sampler.dim_x for sampler in ...)` (/repo/src/bmi/samplers/_independent_coordinates.py:30-31). -/
def sumDims : List (Except Err ℕ) → Except Err ℕ
  | [] => .ok 0
  | d :: rest => do
      let a ← d
      let r ← sumDims rest
      .ok (a + r)

/-- `IndependentConcatenationSampler` (/repo/src/bmi/samplers/_independent_coordinates.py:24-50). -/
def concatenation (R : JaxRandom Key) (samplers : List (Sampler Key)) : Except Err (Sampler Key) := do
  let dx ← sumDims (samplers.map (·.dimX))
  let dy ← sumDims (samplers.map (·.dimY))
  validateDimensions dx dy
  .ok { dimX := .ok dx
        dimY := .ok dy
        sample := fun n rng => do
          let key := castToRng R rng
          let keys := List.ofFn (R.split key samplers.length)
          let parts ← sampleAll n (keys.zip samplers)
          let x ← hstack parts.1
          let y ← hstack parts.2
          .ok (x, y)
        mi := (samplers.map (·.mi)).sum }

/-! ## SplitMultinormal and BivariateNormalSampler -/

/-- `arr.shape == (n, m)` for a two-dimensional array
(/repo/src/bmi/samplers/_splitmultinormal.py:129). -/
def hasShape (a : Arr) (n m : ℕ) : Prop := a.length = n ∧ ∀ r ∈ a, r.length = m

/-- The entries of an array of shape `(n, n)`. -/
def toMatrix (n : ℕ) (a : Arr) : Matrix (Fin n) (Fin n) ℝ := fun i j => (a.getD i []).getD j 0

/-- The entries of a vector of shape `(n,)`. -/
def toVec (n : ℕ) (v : List ℝ) : Fin n → ℝ := fun i => v.getD i 0

/-- `z > 0` for the complex numbers returned by `np.linalg.eigvals` (numpy compares real parts first).  Used at
/repo/src/bmi/samplers/_splitmultinormal.py:16. -/
def numpyPos (z : ℂ) : Prop := 0 < z.re ∨ (z.re = 0 ∧ 0 < z.im)

/-- `np.linalg.eigvals`: the complex roots of the characteristic polynomial.  Used at
/repo/src/bmi/samplers/_splitmultinormal.py:16. -/
noncomputable def eigvals {n : ℕ} (m : Matrix (Fin n) (Fin n) ℝ) : Multiset ℂ :=
  (m.map Complex.ofReal).charpoly.roots

open Classical in
/-- `_can_be_covariance` (/repo/src/bmi/samplers/_splitmultinormal.py:11-17). `np.all(mat != mat.T)` is true only
if *all* entries differ. -/
noncomputable def canBeCovariance {n : ℕ} (m : Matrix (Fin n) (Fin n) ℝ) : Except Err Unit :=
  if ∀ i j, m i j ≠ m j i then .error .valueError
  else if ¬ ∀ z ∈ eigvals m, numpyPos z then .error .valueError
  else .ok ()

/-- `_Multinormal.entropy` (/repo/src/bmi/samplers/_splitmultinormal.py:68-70). -/
noncomputable def entropy {n : ℕ} (m : Matrix (Fin n) (Fin n) ℝ) : ℝ :=
  0.5 * (Real.log m.det + n * (1 + Real.log (2 * Real.pi)))

/-- `covariance[:dim_x, :dim_x]` (/repo/src/bmi/samplers/_splitmultinormal.py:118). -/
def blockX {dx dy : ℕ} (m : Matrix (Fin (dx + dy)) (Fin (dx + dy)) ℝ) : Matrix (Fin dx) (Fin dx) ℝ :=
  fun i j => m (Fin.castAdd dy i) (Fin.castAdd dy j)

/-- `covariance[dim_x:, dim_x:]` (/repo/src/bmi/samplers/_splitmultinormal.py:121). -/
def blockY {dx dy : ℕ} (m : Matrix (Fin (dx + dy)) (Fin (dx + dy)) ℝ) : Matrix (Fin dy) (Fin dy) ℝ :=
  fun i j => m (Fin.natAdd dx i) (Fin.natAdd dx j)

/-- `SplitMultinormal.mutual_information` (/repo/src/bmi/samplers/_splitmultinormal.py:153-157). -/
noncomputable def multinormalMI {dx dy : ℕ} (m : Matrix (Fin (dx + dy)) (Fin (dx + dy)) ℝ) : ℝ :=
  max 0 (entropy (blockX m) + entropy (blockY m) - entropy m)

open Classical in
/-- `SplitMultinormal.__init__` (/repo/src/bmi/samplers/_splitmultinormal.py:93-132), with `sample` (lines 134-137)
and `mutual_information` (lines 139-157).  `mean` and `covariance` are taken to be rectangular arrays of the right
rank; other ranks, rejected by line 127 or 129, are not represented.  The determinants of lines 34 cannot raise for
the square matrices passed here, and the shape checks of lines 40-44 hold after lines 124-132. -/
noncomputable def splitMultinormal (R : JaxRandom Key) (dimX dimY : ℤ) (cov : Arr) (mean : Option (List ℝ)) :
    Except Err (Sampler Key) := do
  validateDimensions dimX dimY
  let dx := dimX.toNat
  let dy := dimY.toNat
  let mean := mean.getD (List.replicate (dx + dy) 0)
  if mean.length ≠ dx + dy then .error .valueError
  else if ¬ hasShape cov (dx + dy) (dx + dy) then .error .valueError
  else do
    let m := toMatrix (dx + dy) cov
    canBeCovariance m
    canBeCovariance (blockX m)
    canBeCovariance (blockY m)
    .ok { dimX := .ok dx
          dimY := .ok dy
          sample := fun n rng =>
            let xy := rowsOf (R.multivariateNormal (castToRng R rng) n (dx + dy) (toVec (dx + dy) mean) m)
            .ok (xy.map (·.take dx), xy.map (·.drop dx))
          mi := multinormalMI m }

open Classical in
/-- `BivariateNormalSampler` (/repo/src/bmi/samplers/_splitmultinormal.py:164-210). -/
noncomputable def bivariateNormal (R : JaxRandom Key) (correlation stdX stdY meanX meanY : ℝ) :
    Except Err (Sampler Key) := do
  if min stdX stdY ≤ 0 then .error .valueError
  else if ¬ (-1 < correlation ∧ correlation < 1) then .error .valueError
  else do
    let cov := correlation * stdX * stdY
    let varX := stdX ^ 2
    let varY := stdY ^ 2
    let s ← splitMultinormal R 1 1 [[varX, cov], [cov, varY]] (some [meanX, meanY])
    .ok { dimX := .ok 1
          dimY := .ok 1
          sample := fun n rng => s.sample n rng
          mi := -0.5 * Real.log (1 - correlation ^ 2) }

/-! ## AdditiveUniformSampler -/

open Classical in
/-- `AdditiveUniformSampler.mutual_information_function` (/repo/src/bmi/samplers/_additive_uniform.py:46-51). -/
noncomputable def additiveMI (epsilon : ℝ) : ℝ :=
  if epsilon > 0.5 then 0.25 / epsilon else epsilon - Real.log (2 * epsilon)

open Classical in
/-- `AdditiveUniformSampler` (/repo/src/bmi/samplers/_additive_uniform.py:12-54). -/
noncomputable def additiveUniform (R : JaxRandom Key) (epsilon : ℝ) : Except Err (Sampler Key) :=
  if epsilon ≤ 0 then .error .valueError
  else
    .ok { dimX := .ok 1
          dimY := .ok 1
          sample := fun n rng =>
            let key := castToRng R rng
            let x := R.uniform (R.split key 2 0) n 1 0 1
            let noise := R.uniform (R.split key 2 1) n 1 (-epsilon) epsilon
            let y := fun i j => x i j + noise i j
            .ok (rowsOf x, rowsOf y)
          mi := additiveMI epsilon }

/-! ## Discrete-continuous mixtures -/

/-- `DiscreteUniformMixtureSampler` (/repo/src/bmi/samplers/_discrete_continuous.py:44-74). `use_discrete_x` only
changes the data type of the returned array, so it does not appear. -/
noncomputable def discreteUniformMixture (R : JaxRandom Key) (m : ℤ) : Except Err (Sampler Key) :=
  if m ≤ 0 then .error .valueError
  else
    .ok { dimX := .ok 1
          dimY := .ok 1
          sample := fun n rng =>
            let key := castToRng R rng
            let xs := R.randint (R.split key 2 0) n 1 0 m
            let uniforms := R.uniform (R.split key 2 1) n 1 0 2
            let ys := fun i j => (xs i j : ℝ) + uniforms i j
            .ok (rowsOf fun i j => (xs i j : ℝ), rowsOf ys)
          mi := Real.log m - (m - 1) * Real.log 2 / m }

/-- `MultivariateDiscreteUniformMixtureSampler` (/repo/src/bmi/samplers/_discrete_continuous.py:108-113). -/
noncomputable def multivariateDiscreteUniformMixture (R : JaxRandom Key) (ms : List ℤ) : Except Err (Sampler Key) := do
  let samplers ← ms.mapM (discreteUniformMixture R)
  concatenation R samplers

open Classical in
/-- `ZeroInflatedPoissonizationSampler.mutual_information` (/repo/src/bmi/samplers/_discrete_continuous.py:157-187) with
its optional argument `truncation`. -/
noncomputable def zeroInflatedPoissonMI (p : ℝ) (truncation : Option ℤ) : Except Err ℝ :=
  match truncation with
  | none => .ok ((1 - p) * 0.3012)
  | some t =>
    if t > 0 then
      let i_arr := (List.range t.toNat).map fun j : ℕ => (j : ℝ) + 1
      let s := (i_arr.map fun i => Real.log i * (2 : ℝ) ^ (-i)).sum
      let bracket := 2 * Real.log 2 - Real.eulerMascheroniConstant - s
      .ok ((1 - p) * bracket)
    else .error .assertionError

/-- `ZeroInflatedPoissonizationSampler` (/repo/src/bmi/samplers/_discrete_continuous.py:130-155).  The constructor
does not call `BaseSampler.__init__`, so that reading `dim_x` or `dim_y` raises `AttributeError`. `use_discrete_y` only
changes the data type of the returned array.  `mi` is the value for the default argument `truncation=None`. -/
noncomputable def zeroInflatedPoisson (R : JaxRandom Key) (p : ℝ) : Except Err (Sampler Key) :=
  if p < 0 ∨ p ≥ 1 then .error .valueError
  else
    .ok { dimX := .error .attributeError
          dimY := .error .attributeError
          sample := fun n rng =>
            let key := castToRng R rng
            let xs := R.exponential (R.split key 3 0) n 1
            let zeros := R.bernoulli (R.split key 3 1) (1 - p) n 1
            let poissons := R.poisson (R.split key 3 2) n 1 xs
            let ys := fun i j => (if zeros i j then 1 else 0 : ℝ) * (poissons i j : ℝ)
            .ok (rowsOf xs, rowsOf ys)
          mi := (1 - p) * 0.3012 }

end BMI.Samplers
