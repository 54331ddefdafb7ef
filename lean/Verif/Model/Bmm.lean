import Verif.Model.Student
import Mathlib.Analysis.SpecialFunctions.Log.ENNRealLogExp
import Mathlib.Data.EReal.Inv

/-!
# Model of the Bend and Mix Models (/repo/src/bmi/samplers/_tfp)

TensorFlow Probability is not part of the repository.  What is used of it is modelled here after its documentation:
distributions are given by their sampling function and their `log_prob`, and `Mixture`, `Blockwise`,
`TransformedDistribution` and the two linear-operator distributions are built from them.  An event is a list of numbers; a
logarithm of a density is an extended real number, `-∞` outside of the support.
-/

namespace BMI.Bmm

open BMI.Samplers BMI.Student

/-- Random numbers used inside of TensorFlow Probability, and `jnp.linalg.cholesky`
(/repo/src/bmi/samplers/_tfp/_normal.py:19 and _student.py:27). -/
structure Tfp (Key : Type) where
  split : Key → (m : ℕ) → Fin m → Key
  categorical : Key → (n : ℕ) → (probs : List ℝ) → Fin n → ℕ
  normal : Key → (n d : ℕ) → Fin n → Fin d → ℝ
  chi2 : Key → (n : ℕ) → (df : ℝ) → Fin n → ℝ
  cholesky : {d : ℕ} → Matrix (Fin d) (Fin d) ℝ → Matrix (Fin d) (Fin d) ℝ

/-- `tfd.Distribution`, as used in /repo/src/bmi/samplers/_tfp/_core.py:46 and 63-65 and
/repo/src/bmi/samplers/_tfp/_product.py:23-24. -/
structure Dist (Key : Type) where
  eventShape : List ℕ
  sample : Key → ℕ → Arr
  logProb : List ℝ → EReal

/-- `tfb.Bijector`, as used in /repo/src/bmi/samplers/_tfp/_core.py:139-149; `ildj` is `inverse_log_det_jacobian` for events
with one axis. -/
structure Bijector where
  forward : List ℝ → List ℝ
  inverse : List ℝ → List ℝ
  ildj : List ℝ → ℝ

/-- `tfb.Identity` (/repo/src/bmi/samplers/_tfp/_core.py:135,137). -/
def Bijector.identity : Bijector := ⟨id, id, fun _ => 0⟩

/-- `tfb.Blockwise` with two blocks (/repo/src/bmi/samplers/_tfp/_core.py:139-141).  The second block is the rest of the event;
TensorFlow Probability raises if its size is not the given one. -/
def Bijector.blockwise (f g : Bijector) (dimX : ℕ) : Bijector where
  forward z := f.forward (z.take dimX) ++ g.forward (z.drop dimX)
  inverse z := f.inverse (z.take dimX) ++ g.inverse (z.drop dimX)
  ildj z := f.ildj (z.take dimX) + g.ildj (z.drop dimX)

variable {Key : Type}

/-- `tfd.TransformedDistribution` (/repo/src/bmi/samplers/_tfp/_core.py:145-149). -/
noncomputable def transformedDistribution (D : Dist Key) (b : Bijector) : Dist Key where
  eventShape := D.eventShape
  sample k n := (D.sample k n).map b.forward
  logProb z := D.logProb (b.inverse z) + (b.ildj z : ℝ)

/-- `tfd.Mixture` of `tfd.Categorical` (/repo/src/bmi/samplers/_tfp/_core.py:98-106): the density is
`logsumexp(log(probs) + log_prob)` (for probabilities that sum up to one, which TensorFlow Probability would otherwise
normalise); to sample, the components are all sampled with keys of their own, and a component is
selected for each row. -/
noncomputable def tfdMixture (T : Tfp Key) (probs : List ℝ) (components : List (Dist Key)) : Dist Key where
  eventShape := (components.map Dist.eventShape).headD []
  sample k n :=
    let keys := T.split k (components.length + 1)
    let samples := List.ofFn fun j : Fin components.length => components[j].sample (keys j.succ) n
    let selected := T.categorical (keys 0) n probs
    List.ofFn fun i : Fin n => (samples.getD (selected i) []).getD i []
  logProb z := ENNReal.log (List.zipWith (fun p D => (ENNReal.log (ENNReal.ofReal p) + D.logProb z).exp) probs components).sum

/-- `tfd.Blockwise` of two distributions (/repo/src/bmi/samplers/_tfp/_product.py:32), which are independent. -/
noncomputable def tfdBlockwise (T : Tfp Key) (D E : Dist Key) : Dist Key where
  eventShape := [D.eventShape.prod + E.eventShape.prod]
  sample k n :=
    let keys := T.split k 2
    List.zipWith (· ++ ·) (D.sample (keys 0) n) (E.sample (keys 1) n)
  logProb z := D.logProb (z.take D.eventShape.prod) + E.logProb (z.drop D.eventShape.prod)

/-- `LinearOperatorLowerTriangular` (/repo/src/bmi/samplers/_tfp/_normal.py:22 and _student.py:30): entries above the
diagonal are ignored. -/
def lowerTriangular {d : ℕ} (a : Matrix (Fin d) (Fin d) ℝ) : Matrix (Fin d) (Fin d) ℝ :=
  Matrix.of fun i j => if j ≤ i then a i j else 0

/-- `|L⁻¹ (z - loc)|²`, computed by `log_prob` of the distributions of
/repo/src/bmi/samplers/_tfp/_normal.py:20-23 and _student.py:28-32. -/
noncomputable def mahalanobis {d : ℕ} (loc : Fin d → ℝ) (scale : Matrix (Fin d) (Fin d) ℝ) (z : Fin d → ℝ) : ℝ :=
  ∑ i, (scale⁻¹.mulVec (z - loc)) i ^ 2

/-- `construct_multivariate_normal_distribution` (/repo/src/bmi/samplers/_tfp/_normal.py:14-23) on arrays of shapes `(d,)`
and `(d, d)`. -/
noncomputable def constructNormal (T : Tfp Key) (d : ℕ) (mean : List ℝ) (covariance : Arr) : Dist Key :=
  let loc := toVec d mean
  let scale := lowerTriangular (T.cholesky (toMatrix d covariance))
  { eventShape := [d]
    sample := fun k n => rowsOf fun i => loc + scale.mulVec (T.normal k n d i)
    logProb := fun z => ((-(1 / 2) * mahalanobis loc scale (toVec d z) - d / 2 * Real.log (2 * Real.pi)
      - Real.log |scale.det| : ℝ) : EReal) }

/-- `construct_multivariate_student_distribution` (/repo/src/bmi/samplers/_tfp/_student.py:14-32). -/
noncomputable def constructStudent (T : Tfp Key) (d : ℕ) (mean : List ℝ) (dispersion : Arr) (df : ℝ) : Dist Key :=
  let loc := toVec d mean
  let scale := lowerTriangular (T.cholesky (toMatrix d dispersion))
  { eventShape := [d]
    sample := fun k n =>
      let keys := T.split k 2
      let normal := T.normal (keys 0) n d
      let chi2 := T.chi2 (keys 1) n df
      rowsOf fun i => loc + scale.mulVec ((√(chi2 i / df))⁻¹ • normal i)
    logProb := fun z => ((-(1 / 2) * (df + d) * Real.log (1 + mahalanobis loc scale (toVec d z) / df)
      - (Real.log (Real.Gamma (df / 2)) + d / 2 * (Real.log df + Real.log Real.pi) + Real.log |scale.det|
        - Real.log (Real.Gamma ((df + d) / 2))) : ℝ) : EReal) }

/-- `JointDistribution` (/repo/src/bmi/samplers/_tfp/_core.py:12-34). -/
structure JointDistribution (Key : Type) where
  distJoint : Dist Key
  distX : Dist Key
  distY : Dist Key
  dimX : ℕ
  dimY : ℕ
  analyticMi : Option ℝ

/-- `JointDistribution.sample` (/repo/src/bmi/samplers/_tfp/_core.py:36-47). -/
def JointDistribution.sample (J : JointDistribution Key) (nPoints : ℤ) (key : Key) : Except Err (Arr × Arr) :=
  if nPoints < 1 then .error .valueError
  else
    let xy := J.distJoint.sample key nPoints.toNat
    .ok (xy.map (·.take J.dimX), xy.map (·.drop J.dimX))

/-- `JointDistribution.pmi` (/repo/src/bmi/samplers/_tfp/_core.py:49-67) at one point.  A subtraction of infinities of equal
sign, which is NaN, does not arise where the marginals have finite logarithms. -/
noncomputable def JointDistribution.pmiAt (J : JointDistribution Key) (x y : List ℝ) : EReal :=
  let logPxy := J.distJoint.logProb (x ++ y)
  let logPx := J.distX.logProb x
  let logPy := J.distY.logProb y
  logPxy - (logPx + logPy)

/-- `JointDistribution.pmi` (/repo/src/bmi/samplers/_tfp/_core.py:49-67).  `jnp.hstack` raises if the numbers of rows
differ. -/
noncomputable def JointDistribution.pmi (J : JointDistribution Key) (x y : Arr) : Except Err (List EReal) :=
  if x.length = y.length then .ok (List.zipWith J.pmiAt x y) else .error .typeError

/-- `mixture` (/repo/src/bmi/samplers/_tfp/_core.py:70-115).  A set of numbers has one element if the list is not empty and
all its entries equal the first. -/
noncomputable def mixture (T : Tfp Key) (proportions : List ℝ) (components : List (JointDistribution Key)) :
    Except Err (JointDistribution Key) :=
  match components with
  | [] => .error .valueError
  | c :: cs =>
    if cs.any (fun d => d.dimX != c.dimX) || cs.any (fun d => d.dimY != c.dimY) then .error .valueError
    else if (c :: cs).length ≠ proportions.length then .error .valueError
    else .ok
      { distJoint := tfdMixture T proportions ((c :: cs).map JointDistribution.distJoint)
        distX := tfdMixture T proportions ((c :: cs).map JointDistribution.distX)
        distY := tfdMixture T proportions ((c :: cs).map JointDistribution.distY)
        dimX := c.dimX
        dimY := c.dimY
        analyticMi := none }

/-- `transform` (/repo/src/bmi/samplers/_tfp/_core.py:118-151). -/
noncomputable def transform (J : JointDistribution Key) (xTransform yTransform : Option Bijector) : JointDistribution Key :=
  let xTransform := xTransform.getD .identity
  let yTransform := yTransform.getD .identity
  let productBijector := Bijector.blockwise xTransform yTransform J.dimX
  { dimX := J.dimX
    dimY := J.dimY
    distJoint := transformedDistribution J.distJoint productBijector
    distX := transformedDistribution J.distX xTransform
    distY := transformedDistribution J.distY yTransform
    analyticMi := J.analyticMi }

/-- `pmi_profile` (/repo/src/bmi/samplers/_tfp/_core.py:154-166). -/
noncomputable def pmiProfile (key : Key) (J : JointDistribution Key) (n : ℤ) : Except Err (List EReal) := do
  let xy ← J.sample n key
  J.pmi xy.1 xy.2

/-- `jnp.mean` (/repo/src/bmi/samplers/_tfp/_core.py:183). -/
noncomputable def mean (l : List EReal) : EReal := l.sum / l.length

/-- `jnp.std` (/repo/src/bmi/samplers/_tfp/_core.py:184), for finite numbers. -/
noncomputable def std (l : List ℝ) : ℝ :=
  let m := l.sum / l.length
  √((l.map fun x => (x - m) ^ 2).sum / l.length)

/-- `monte_carlo_mi_estimate` (/repo/src/bmi/samplers/_tfp/_core.py:169-186).  The standard error is meaningful if the profile
is finite. -/
noncomputable def monteCarloMiEstimate (key : Key) (J : JointDistribution Key) (n : ℤ) : Except Err (EReal × ℝ) := do
  let profile ← pmiProfile key J n
  .ok (mean profile, std (profile.map EReal.toReal) / √n)

/-- `ProductDistribution` (/repo/src/bmi/samplers/_tfp/_product.py:9-41). -/
noncomputable def productDistribution (T : Tfp Key) (distX distY : Dist Key) : Except Err (JointDistribution Key) :=
  let dimsX := distX.eventShape
  let dimsY := distY.eventShape
  if dimsX.length ≠ 1 then .error .assertionError
  else if dimsY.length ≠ 1 then .error .assertionError
  else .ok
    { dimX := dimsX.headD 0
      dimY := dimsY.headD 0
      distJoint := tfdBlockwise T distX distY
      distX := distX
      distY := distY
      analyticMi := some 0 }

/-- `MultivariateNormalDistribution` (/repo/src/bmi/samplers/_tfp/_normal.py:26-76). -/
noncomputable def multivariateNormalDistribution (R : JaxRandom Key) (T : Tfp Key) (dimX dimY : ℤ) (covariance : Arr)
    (mean : Option (List ℝ)) : Except Err (JointDistribution Key) :=
  if mean.isNone ∧ dimX + dimY < 0 then .error .valueError
  else do
    let mean := mean.getD (List.replicate (dimX + dimY).toNat 0)
    let sampler ← splitMultinormal R dimX dimY covariance (some mean)
    let dx := dimX.toNat
    let dy := dimY.toNat
    .ok
      { dimX := dx
        dimY := dy
        distJoint := constructNormal T (dx + dy) mean covariance
        distX := constructNormal T dx (mean.take dx) ((covariance.take dx).map (·.take dx))
        distY := constructNormal T dy (mean.drop dx) ((covariance.drop dx).map (·.drop dx))
        analyticMi := some sampler.mi }

/-- `MultivariateStudentDistribution` (/repo/src/bmi/samplers/_tfp/_student.py:35-102). -/
noncomputable def multivariateStudentDistribution {State : Type} (R : JaxRandom Key) (N : NpRandom State) (T : Tfp Key)
    (dimX dimY : ℤ) (df : ℝ) (dispersion : Arr) (mean : Option (List ℝ)) : Except Err (JointDistribution Key) :=
  if mean.isNone ∧ dimX + dimY < 0 then .error .valueError
  else do
    let mean := mean.getD (List.replicate (dimX + dimY).toNat 0)
    let sampler ← splitStudentT R N dimX dimY df dispersion (some mean)
    let dx := dimX.toNat
    let dy := dimY.toNat
    .ok
      { dimX := dx
        dimY := dy
        distJoint := constructStudent T (dx + dy) mean dispersion df
        distX := constructStudent T dx (mean.take dx) ((dispersion.take dx).map (·.take dx)) df
        distY := constructStudent T dy (mean.drop dx) ((dispersion.drop dx).map (·.drop dx)) df
        analyticMi := some sampler.sampler.mi }

/-! ## BMMSampler -/

/-- The attributes of a `BMMSampler` (/repo/src/bmi/samplers/_tfp/_wrapper.py:30-37), and the number of Monte Carlo estimates
made so far. -/
structure BmmSampler (Key : Type) where
  dist : JointDistribution Key
  mi : Option EReal
  miStderr : Option ℝ
  seed : Rng Key
  size : ℤ
  estimates : ℕ

/-- `BMMSampler.__init__` (/repo/src/bmi/samplers/_tfp/_wrapper.py:14-39). -/
def bmmSampler (dist : JointDistribution Key) (mi : Option ℝ) (seed : Rng Key) (size : ℤ) : Except Err (BmmSampler Key) := do
  validateDimensions dist.dimX dist.dimY
  if size < 1 then .error .valueError
  else .ok { dist := dist, mi := mi.map Real.toEReal, miStderr := none, seed := seed, size := size, estimates := 0 }

/-- `BMMSampler.sample` (/repo/src/bmi/samplers/_tfp/_wrapper.py:41-45). -/
def BmmSampler.sample (R : JaxRandom Key) (s : BmmSampler Key) (n : ℤ) (rng : Rng Key) : Except Err (Arr × Arr) :=
  s.dist.sample n (castToRng R rng)

/-- `BMMSampler.mutual_information` (/repo/src/bmi/samplers/_tfp/_wrapper.py:47-55), with the object after the call. -/
noncomputable def BmmSampler.mutualInformation (R : JaxRandom Key) (s : BmmSampler Key) : Except Err EReal × BmmSampler Key :=
  match s.mi with
  | some v => (.ok v, s)
  | none =>
    match monteCarloMiEstimate (castToRng R s.seed) s.dist s.size with
    | .error e => (.error e, { s with estimates := s.estimates + 1 })
    | .ok (v, err) => (.ok v, { s with mi := some v, miStderr := some err, estimates := s.estimates + 1 })

/-- A call of a method of a `BMMSampler` (/repo/src/bmi/samplers/_tfp/_wrapper.py:41-55). -/
inductive Call (Key : Type) where
  | sample (n : ℤ) (rng : Rng Key)
  | mutualInformation

/-- The result of a call. -/
inductive Reply where
  | arrays (r : Except Err (Arr × Arr))
  | number (r : Except Err EReal)

/-- One call (/repo/src/bmi/samplers/_tfp/_wrapper.py:41-55). -/
noncomputable def BmmSampler.call (R : JaxRandom Key) (s : BmmSampler Key) : Call Key → Reply × BmmSampler Key
  | .sample n rng => (.arrays (s.sample R n rng), s)
  | .mutualInformation => let r := s.mutualInformation R; (.number r.1, r.2)

/-- A sequence of calls (/repo/src/bmi/samplers/_tfp/_wrapper.py:41-55). -/
noncomputable def BmmSampler.calls (R : JaxRandom Key) (s : BmmSampler Key) : List (Call Key) → List Reply × BmmSampler Key
  | [] => ([], s)
  | c :: cs =>
    let r := s.call R c
    let rs := r.2.calls R cs
    (r.1 :: rs.1, rs.2)

end BMI.Bmm
