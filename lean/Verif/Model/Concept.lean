import Verif.Model.Transforms

/-!
# Model of the figures of the concept and of the experiment with spirals

* /repo/scripts/Beyond_Normal/figures/concept/1v1.py,
* /repo/scripts/Beyond_Normal/figures/concept/2v1.py,
* /repo/scripts/Beyond_Normal/experimental/ksg_spiral.py.

The estimator is a parameter: a function of the numbers of neighbours passed to the constructor and of the two arrays.  (By C27
an estimate does not depend on what the object was used for before.)  Limits, ticks, sizes and transparency are left out.
-/

namespace BMI.Concept

open BMI.Samplers

variable {Key : Type}

/-- Numbers of neighbours and the arrays to the value of `KSGEnsembleFirstEstimator(neighborhoods).estimate(x, y)`
(/repo/src/bmi/estimators/ksg.py:34-144). -/
abbrev Ksg := List ℕ → Arr → Arr → Except Err ℝ

/-- `format(v, ".{d}f")` (/repo/scripts/Beyond_Normal/figures/concept/1v1.py:140 and others): rounding to `d` digits.  Simplification: ties
are rounded up. -/
noncomputable def fixed (d : ℕ) (v : ℝ) : String :=
  let c := (round (|v| * 10 ^ d)).toNat
  (if v < 0 then "-" else "") ++ toString (c / 10 ^ d) ++ "."
    ++ String.join ((List.range d).map fun i => toString (c / 10 ^ (d - 1 - i) % 10))

/-- `np.mean` (/repo/scripts/Beyond_Normal/figures/concept/1v1.py:91, /repo/scripts/Beyond_Normal/figures/concept/2v1.py:18). -/
noncomputable def mean (es : List ℝ) : ℝ := es.sum / es.length

/-- `np.std(..., ddof=0)` (/repo/scripts/Beyond_Normal/figures/concept/1v1.py:95, /repo/scripts/Beyond_Normal/figures/concept/2v1.py:22). -/
noncomputable def std (es : List ℝ) : ℝ := √((es.map fun e => (e - mean es) ^ 2).sum / es.length)

/-! ## One dimension -/

/-- `_assert_ravel_1d_array` (/repo/scripts/Beyond_Normal/figures/concept/1v1.py:12-18) for an array with two axes. -/
def ravel1d (a : Arr) : Except Err (List ℝ) := if a.all fun r => r.length == 1 then .ok a.flatten else .error .valueError

/-- `plot_points` (/repo/scripts/Beyond_Normal/figures/concept/1v1.py:37-46). -/
def plotPoints (x y : Arr) : Except Err (List (ℝ × ℝ)) := do
  let x ← ravel1d x
  let y ← ravel1d y
  .ok (x.zip y)

/-- `sigmoid` (/repo/scripts/Beyond_Normal/figures/concept/1v1.py:49-50). -/
noncomputable def sigmoid (x : ℝ) : ℝ := 1 / (1 + Real.exp (-8 * x))

/-- `stairs` (/repo/scripts/Beyond_Normal/figures/concept/1v1.py:53-54). -/
noncomputable def stairs (t : ℝ) : ℝ := sigmoid t + sigmoid (t - 1) + sigmoid (t + 2)

/-- A function applied to an array (/repo/scripts/Beyond_Normal/figures/concept/1v1.py:88, 150-151). -/
def onArr (f : ℝ → ℝ) (a : Arr) : Arr := a.map (List.map f)

/-- `f1` (/repo/scripts/Beyond_Normal/figures/concept/1v1.py:68-69). -/
def f1 (x : ℝ) : ℝ := x

/-- `g1` (/repo/scripts/Beyond_Normal/figures/concept/1v1.py:72-73). -/
noncomputable def g1 (y : ℝ) : ℝ := erf y

/-- `f2` (/repo/scripts/Beyond_Normal/figures/concept/1v1.py:76-77). -/
noncomputable def f2 (x : ℝ) : ℝ := stairs x

/-- `g2` (/repo/scripts/Beyond_Normal/figures/concept/1v1.py:80-81). -/
noncomputable def g2 (y : ℝ) : ℝ := -stairs y

/-- `get_estimates` (/repo/scripts/Beyond_Normal/figures/concept/1v1.py:84-96). -/
noncomputable def getEstimates (s : Sampler Key) (est : Arr → Arr → Except Err ℝ) (f g : ℝ → ℝ) (nPoints nSeeds : ℕ) : Except Err (ℝ × ℝ) := do
  let estimates ← (List.range nSeeds).mapM fun seed : ℕ => do
    let xy ← s.sample nPoints (.seed seed)
    est (onArr f xy.1) (onArr g xy.2)
  .ok (mean estimates, std estimates)

/-- What an axis shows (/repo/scripts/Beyond_Normal/figures/concept/1v1.py:139-173, /repo/scripts/Beyond_Normal/figures/concept/2v1.py:36-39, 92-94);
`colours` and `ylabel` are empty if not given. -/
structure Panel where
  title : String
  xlabel : String
  ylabel : String
  points : List (ℝ × ℝ)
  colours : List ℝ

/-- The titles (/repo/scripts/Beyond_Normal/figures/concept/1v1.py:139-145). -/
noncomputable def title (miTrue : ℝ) (e : ℝ × ℝ) : String :=
  "True: " ++ fixed 2 miTrue ++ " Estimate: " ++ fixed 2 e.1 ++ " $\\pm$ " ++ fixed 2 e.2

/-- The covariance (/repo/scripts/Beyond_Normal/figures/concept/1v1.py:104-111). -/
noncomputable def covariance11 : Arr :=
  let correlation := 0.95
  [[1.0, correlation], [correlation, 1]]

/-- `main` (/repo/scripts/Beyond_Normal/figures/concept/1v1.py:99-176). -/
noncomputable def main11 (R : JaxRandom Key) (ksg : Ksg) : Except Err (List Panel) := do
  let nSeeds := 20
  let nPointsPlot := 10000
  let nPointsSample := 1000
  let sampler ← splitMultinormal R 1 1 covariance11 none
  let miTrue := sampler.mi
  let original ← getEstimates sampler (ksg [10]) id id nPointsSample nSeeds
  let slight ← getEstimates sampler (ksg [10]) f1 g1 nPointsSample nSeeds
  let dramatic ← getEstimates sampler (ksg [10]) f2 g2 nPointsSample nSeeds
  let xy ← sampler.sample nPointsPlot (.seed 42)
  let p0 ← plotPoints xy.1 xy.2
  let p1 ← plotPoints (onArr f1 xy.1) (onArr g1 xy.2)
  let p2 ← plotPoints (onArr f2 xy.1) (onArr g2 xy.2)
  .ok [⟨title miTrue original, "$X$", "$Y$", p0, []⟩, ⟨title miTrue slight, "$f_1(X)$", "$g_1(Y)$", p1, []⟩,
    ⟨title miTrue dramatic, "$f_2(X)$", "$g_2(Y)$", p2, []⟩]

/-! ## Two dimensions -/

/-- `get_estimates` (/repo/scripts/Beyond_Normal/figures/concept/2v1.py:7-23). -/
noncomputable def getEstimates2 (s : Sampler Key) (est : Arr → Arr → Except Err ℝ) (nPoints nSeeds : ℕ) : Except Err (ℝ × ℝ) := do
  let estimates ← (List.range nSeeds).mapM fun seed : ℕ => do
    let xy ← s.sample nPoints (.seed seed)
    est xy.1 xy.2
  .ok (mean estimates, std estimates)

/-- `x[:, j]` (/repo/scripts/Beyond_Normal/figures/concept/2v1.py:39); a missing column raises. -/
def column (j : ℕ) (a : Arr) : Except Err (List ℝ) := a.mapM fun r =>
  match r[j]? with
  | some v => .ok v
  | none => .error .indexError

/-- `plot_sampler` (/repo/scripts/Beyond_Normal/figures/concept/2v1.py:26-40), with the label set later. -/
noncomputable def plotSampler (ksg : Ksg) (s : Sampler Key) (nPointsEstimate nPointsPlot nSeeds : ℕ) (xlabel : String) : Except Err Panel := do
  let e ← getEstimates2 s (ksg [10]) nPointsEstimate nSeeds
  let miTrue := s.mi
  let xy ← s.sample nPointsPlot (.seed 42)
  let a ← column 0 xy.1
  let b ← column 1 xy.1
  .ok ⟨"True: " ++ fixed 2 miTrue ++ ". Estimated: $" ++ fixed 2 e.1 ++ " \\pm " ++ fixed 2 e.2 ++ "$", xlabel, "", a.zip b, xy.2.flatten⟩

/-- The covariance (/repo/scripts/Beyond_Normal/figures/concept/2v1.py:44-45, 56-62). -/
noncomputable def covariance21 : Arr :=
  let xx := 0.5
  let xy := 0.805
  [[1.0, xx, xy], [xx, 1.0, xy], [xy, xy, 1.0]].map (List.map (0.8 * ·))

/-- `main` (/repo/scripts/Beyond_Normal/figures/concept/2v1.py:43-102). -/
noncomputable def main21 (R : JaxRandom Key) (ksg : Ksg) : Except Err (List Panel) := do
  let gaussian ← splitMultinormal R 2 1 covariance21 none
  let generator ← soGenerator 2 0 1
  let spiralSlow ← spiral ⟨2, 2, generator⟩ none 0.5
  let spiralFast ← spiral ⟨2, 2, generator⟩ none 1
  let slow ← transformed gaussian (.row spiralSlow.row) .none 0 0
  let fast ← transformed gaussian (.row spiralFast.row) .none 0 0
  let p0 ← plotSampler ksg gaussian 5000 5000 10 "$X$"
  let p1 ← plotSampler ksg slow 5000 5000 10 "$f_1(X)$"
  let p2 ← plotSampler ksg fast 5000 5000 10 "$f_2(X)$"
  .ok [p0, p1, p2]

/-! ## The experiment -/

/-- `generate_covariance` (/repo/scripts/Beyond_Normal/experimental/ksg_spiral.py:24-33).  `np.eye` raises for a negative size, and
negative indices count from the end. -/
noncomputable def generateCovariance (correlation : ℝ) (dimX dimY : ℤ) : Except Err Arr :=
  let n := dimX + dimY
  if n < 0 then .error .valueError
  else if ¬ (0 < n ∧ -n ≤ dimX ∧ dimX < n) then .error .indexError
  else
    let c := (if dimX < 0 then dimX + n else dimX).toNat
    .ok (rowsOf fun i j : Fin n.toNat => if ((i : ℕ), (j : ℕ)) = (0, c) ∨ ((i : ℕ), (j : ℕ)) = (c, 0) then correlation else if i = j then 1 else 0)

/-- `create_base_sampler` (/repo/scripts/Beyond_Normal/experimental/ksg_spiral.py:36-45). -/
noncomputable def createBaseSampler (R : JaxRandom Key) (dimX dimY : ℤ) (rho : ℝ) : Except Err (Sampler Key) :=
  if ¬ (-1 ≤ rho ∧ rho < 1) then .error .assertionError
  else do
    let covariance ← generateCovariance rho dimX dimY
    splitMultinormal R dimX dimY covariance none

/-- The arguments (/repo/scripts/Beyond_Normal/experimental/ksg_spiral.py:10-21). -/
structure Args where
  dimX : ℤ := 3
  dimY : ℤ := 2
  rho : ℝ := 0.8
  nPoints : ℕ := 5000
  seed : ℤ := 42

/-- The speeds (/repo/scripts/Beyond_Normal/experimental/ksg_spiral.py:69). -/
noncomputable def speeds : List ℝ := [0.0, 0.02, 0.1, 0.5, 1.0, 10.0]

/-- The default numbers of neighbours (/repo/src/bmi/estimators/ksg.py:43). -/
def defaultNeighborhoods : List ℕ := [5, 10]

/-- One line of the table (/repo/scripts/Beyond_Normal/experimental/ksg_spiral.py:70-81). -/
noncomputable def tableLine (ksg : Ksg) (base : Sampler Key) (generator : Arr2) (x y : Arr) (speed : ℝ) : Except Err String := do
  let t ← spiral generator none speed
  let _ ← transformed base (.row t.row) .none 0 0
  let e ← ksg defaultNeighborhoods (Transform.vectorized (.row t.row) x) (Transform.vectorized .none y)
  .ok (fixed 2 speed ++ "\t " ++ fixed 3 e)

/-- `main` (/repo/scripts/Beyond_Normal/experimental/ksg_spiral.py:48-81): what is printed after the settings, if nothing raises. -/
noncomputable def experiment (R : JaxRandom Key) (ksg : Ksg) (args : Args) : Except Err (List String) := do
  let base ← createBaseSampler R args.dimX args.dimY args.rho
  let xy ← base.sample args.nPoints (.seed args.seed)
  let miTrue := base.mi
  let e ← ksg defaultNeighborhoods xy.1 xy.2
  let generator ← soGenerator args.dimX.toNat 0 1
  let lines ← speeds.mapM (tableLine ksg base ⟨_, _, generator⟩ xy.1 xy.2)
  .ok (["True MI: " ++ fixed 3 miTrue, "KSG(X; Y) without distortion: " ++ fixed 3 e, "-------------------", "speed\tKSG(spiral(X); Y)"] ++ lines)

end BMI.Concept
