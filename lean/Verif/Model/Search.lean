import Verif.Model.Transforms
import Verif.Model.MatrixUtils

/-!
# Model of the numerical searches

* `invert_mono`, `invert_cdf` (/repo/src/bmi/transforms/_invert_cdf.py) and the task built with it,
* `binsearch` and the tasks built with it (/repo/workflows/projects/Beyond_Normal/_high_mi_utils.py).

Both searches are written over an arbitrary type of numbers, given by the operations of the code, so that statements
that do not depend on rounding hold for floating-point numbers, including NaN and infinities.
-/

namespace BMI.Search

open BMI.Samplers BMI.MatrixUtils

/-- The operations on floats used at /repo/src/bmi/transforms/_invert_cdf.py:19-30 and
/repo/workflows/projects/Beyond_Normal/_high_mi_utils.py:35-57. -/
structure FloatOps (F : Type) where
  add : F → F → F
  sub : F → F → F
  mul : F → F → F
  div : F → F → F
  abs : F → F
  lt : F → F → Bool
  lit : ℚ → F

open Classical in
/-- Exact real arithmetic, the idealisation of floats used for accuracy statements (the operations at
/repo/src/bmi/transforms/_invert_cdf.py:19-30). -/
noncomputable def realOps : FloatOps ℝ where
  add := (· + ·)
  sub := (· - ·)
  mul := (· * ·)
  div := (· / ·)
  abs := fun x => |x|
  lt := fun x y => decide (x < y)
  lit := fun q => q

/-! ## Inversion of monotone functions -/

open Classical in
/-- `jax.lax.while_loop`, as called at /repo/src/bmi/transforms/_invert_cdf.py:32; `none` if the loop never ends. -/
noncomputable def whileLoop {S : Type} (cond : S → Bool) (step : S → S) (s : S) : Option S :=
  if h : ∃ n, cond (step^[n] s) = false then some (step^[Nat.find h] s) else none

variable {F : Type}

/-- `xm = (x0 + x1) / 2` (/repo/src/bmi/transforms/_invert_cdf.py:19,28,33). -/
def middle (o : FloatOps F) (x0 x1 : F) : F := o.div (o.add x0 x1) (o.lit 2)

/-- `g_step` (/repo/src/bmi/transforms/_invert_cdf.py:17-24). -/
def gStep (o : FloatOps F) (f : F → F) (y : F) (xs : F × F) : F × F :=
  let xm := middle o xs.1 xs.2
  if o.lt (f xm) y then (xm, xs.2) else (xs.1, xm)

/-- `g_cond` (/repo/src/bmi/transforms/_invert_cdf.py:26-30); the product of booleans is their conjunction. -/
def gCond (o : FloatOps F) (delta : F) (xs : F × F) : Bool :=
  let xm := middle o xs.1 xs.2
  o.lt delta (o.abs (o.sub xs.2 xs.1)) && o.lt xm xs.2 && o.lt xs.1 xm

/-- The loop of `invert_mono` (/repo/src/bmi/transforms/_invert_cdf.py:32). -/
noncomputable def invertLoop (o : FloatOps F) (f : F → F) (xMin xMax delta y : F) : Option (F × F) :=
  whileLoop (gCond o delta) (gStep o f y) (xMin, xMax)

/-- The function returned by `invert_mono` (/repo/src/bmi/transforms/_invert_cdf.py:10-35); `none` if the loop never
ends. -/
noncomputable def invertMono (o : FloatOps F) (f : F → F) (xMin xMax delta y : F) : Option F :=
  (invertLoop o f xMin xMax delta y).map fun xs => middle o xs.1 xs.2

/-- The function returned by `invert_cdf` with the default bracket (/repo/src/bmi/transforms/_invert_cdf.py:38-45), on
one entry of the array, in real arithmetic.  Vectorisation and compilation do not change the values. -/
noncomputable def invertCdf (cdf : ℝ → ℝ) (y : ℝ) : Option ℝ := invertMono realOps cdf (-10) 10 1e-12 y

/-- `icdf_x` is the inverse of this function (/repo/src/bmi/benchmark/tasks/bimodal_gaussians.py:15). -/
noncomputable def bimodalCdfX (x : ℝ) : ℝ := 0.3 * normalCdf (x + 0) + 0.7 * normalCdf (x - 5)

/-- `icdf_y` is the inverse of this function (/repo/src/bmi/benchmark/tasks/bimodal_gaussians.py:16). -/
noncomputable def bimodalCdfY (x : ℝ) : ℝ := 0.5 * normalCdf (x + 1) + 0.5 * normalCdf (x - 3)

/-- `task_bimodal_gaussians` (/repo/src/bmi/benchmark/tasks/bimodal_gaussians.py:8-31) with the two inverse functions as
parameters. -/
noncomputable def bimodalWith {Key : Type} (R : JaxRandom Key) (icdfX icdfY : ℝ → ℝ) (correlation : ℝ) :
    Except Err (Sampler Key) := do
  let binormal ← bivariateNormal R correlation 1 1 0 0
  let uniform ← normalCdfTask binormal
  transformed uniform (.row (List.map icdfX)) (.row (List.map icdfY)) 0 0

/-- `task_bimodal_gaussians` (/repo/src/bmi/benchmark/tasks/bimodal_gaussians.py:8-31).  The loop of `invert_cdf` always
ends, so that the value 0 is never used. -/
noncomputable def bimodalTask {Key : Type} (R : JaxRandom Key) (correlation : ℝ) : Except Err (Sampler Key) :=
  bimodalWith R (fun u => (invertCdf bimodalCdfX u).getD 0) (fun u => (invertCdf bimodalCdfY u).getD 0) correlation

/-! ## Binary search -/

/-- The variables of `binsearch` (/repo/workflows/projects/Beyond_Normal/_high_mi_utils.py:32-37).  `draws` counts the
calls of `rng.uniform`; `evaluated` lists the arguments `func` was called with, most recent first. -/
structure SearchState (F : Type) where
  minVal : F
  maxVal : F
  mid : F
  value : F
  draws : ℕ
  evaluated : List F

/-- `abs(value - target) < delta` (/repo/workflows/projects/Beyond_Normal/_high_mi_utils.py:43,54). -/
def meets (o : FloatOps F) (target delta value : F) : Bool := o.lt (o.abs (o.sub value target)) delta

/-- One iteration of the loop of `binsearch` (/repo/workflows/projects/Beyond_Normal/_high_mi_utils.py:39-52).  The
flag is `true` after `break`.  `uniform a b k` is the `k`-th number drawn by `rng.uniform(a, b)`.  Exceptions other
than `ValueError` leave the loop. -/
def binsearchStep (o : FloatOps F) (func : F → Except Err F) (target minValue maxValue delta : F)
    (uniform : F → F → ℕ → F) (s : SearchState F) : Except Err (SearchState F × Bool) :=
  let s := { s with evaluated := s.mid :: s.evaluated }
  match func s.mid with
  | .ok value =>
    if meets o target delta value then .ok ({ s with value := value }, true)
    else
      let s := if o.lt target value then { s with value := value, maxVal := s.mid }
        else { s with value := value, minVal := s.mid }
      .ok ({ s with mid := o.mul (o.lit (1 / 2)) (o.add s.maxVal s.minVal) }, false)
  | .error .valueError => .ok ({ s with mid := uniform minValue maxValue s.draws, draws := s.draws + 1 }, false)
  | .error e => .error e

/-- The loop of `binsearch` (/repo/workflows/projects/Beyond_Normal/_high_mi_utils.py:39-52). -/
def binsearchLoop (o : FloatOps F) (func : F → Except Err F) (target minValue maxValue delta : F)
    (uniform : F → F → ℕ → F) : ℕ → SearchState F → Except Err (SearchState F)
  | 0, s => .ok s
  | n + 1, s => do
    let (s, stop) ← binsearchStep o func target minValue maxValue delta uniform s
    if stop then .ok s else binsearchLoop o func target minValue maxValue delta uniform n s

/-- The initial values (/repo/workflows/projects/Beyond_Normal/_high_mi_utils.py:34-37). -/
def binsearchStart (o : FloatOps F) (minValue maxValue : F) : SearchState F where
  minVal := minValue
  maxVal := maxValue
  mid := o.mul (o.lit (1 / 2)) (o.add minValue maxValue)
  value := o.lit (-1000000000)
  draws := 0
  evaluated := []

/-- `binsearch` (/repo/workflows/projects/Beyond_Normal/_high_mi_utils.py:15-57).  A negative `max_iter` is an empty
loop, as is 0. -/
def binsearch (o : FloatOps F) (func : F → Except Err F) (target minValue maxValue delta : F) (maxIter : ℕ)
    (uniform : F → F → ℕ → F) : Except Err (Option F) := do
  let s ← binsearchLoop o func target minValue maxValue delta uniform maxIter (binsearchStart o minValue maxValue)
  if meets o target delta s.value then .ok (some s.mid) else .ok none

variable {Key : Type}

/-- `get_sparse_gaussian_sampler` (/repo/workflows/projects/Beyond_Normal/_high_mi_utils.py:65-79). -/
noncomputable def getSparseGaussianSampler (R : JaxRandom Key) (correlation : ℝ) (dim : ℤ) : Except Err (Sampler Key) := do
  let covariance ← parametrisedCorrelationMatrix dim dim 2 correlation 0 0
  splitMultinormal R dim dim (rowsOf covariance) none

/-- `mi_sparse_gaussian` (/repo/workflows/projects/Beyond_Normal/_high_mi_utils.py:82-85). -/
noncomputable def miSparseGaussian (R : JaxRandom Key) (correlation : ℝ) (dim : ℤ) : Except Err ℝ := do
  let sampler ← getSparseGaussianSampler R correlation dim
  .ok sampler.mi

/-- `generate_sparse_gaussian_task` (/repo/workflows/projects/Beyond_Normal/_high_mi_utils.py:88-119): the sampler of the
task; names and parameters are left out. -/
noncomputable def generateSparseGaussianTask (R : JaxRandom Key) (uniform : ℝ → ℝ → ℕ → ℝ) (mi : ℝ) (dim : ℤ) :
    Except Err (Option (Sampler Key)) := do
  let corr ← binsearch realOps (fun c => miSparseGaussian R c dim) mi 0 1 1e-4 5000 uniform
  match corr with
  | none => .ok none
  | some corr => do
    let sampler ← getSparseGaussianSampler R corr dim
    .ok (some sampler)

/-- `generate_spiral_task` (/repo/workflows/projects/Beyond_Normal/_high_mi_utils.py:125-147). -/
noncomputable def generateSpiralTask (R : JaxRandom Key) (uniform : ℝ → ℝ → ℕ → ℝ) (mi : ℝ) (dim : ℤ) (speed : ℝ) :
    Except Err (Option (Sampler Key)) := do
  let base ← generateSparseGaussianTask R uniform mi dim
  match base with
  | none => .ok none
  | some base => do
    let task ← spiralTask base speed true
    .ok (some task)

/-- `generate_half_cube_task` (/repo/workflows/projects/Beyond_Normal/_high_mi_utils.py:155-172). -/
noncomputable def generateHalfCubeTask (R : JaxRandom Key) (uniform : ℝ → ℝ → ℕ → ℝ) (mi : ℝ) (dim : ℤ) :
    Except Err (Option (Sampler Key)) := do
  let base ← generateSparseGaussianTask R uniform mi dim
  match base with
  | none => .ok none
  | some base => do
    let task ← halfCubeTask base
    .ok (some task)

end BMI.Search
