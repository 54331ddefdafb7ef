import Verif.Model.MixtureTasks
import Verif.Model.Search
import Verif.Model.Workflow

/-!
Model of two workflows that draw from Bend and Mix Models with positional arguments
(/repo/workflows/projects/Mixtures/distinct_profiles.smk and /repo/workflows/projects/Mixtures/pmi_plot_1v1.smk).

The way of drawing is a parameter of the rules: `asWritten` passes the arguments as the workflows do, `inOrder` passes them in
the order of the signature of `JointDistribution.sample`.  Saving and loading an array gives it back; numbers are real numbers;
colours, titles and the ranges of axes are left out.
-/

namespace BMI.Profiles

open BMI.Samplers BMI.Bmm BMI.Student BMI.MixtureTasks BMI.Search BMI.Workflow
open BMI.Run (Dict)

variable {Key : Type}

/-! ## Positional arguments -/

/-- A value passed to `JointDistribution.sample`: a number or a random key
(/repo/workflows/projects/Mixtures/distinct_profiles.smk:42-43). -/
inductive Arg (Key : Type) where
  | int (n : ℤ)
  | key (k : Key)

/-- The value of a comparison: a boolean, or an array of booleans (/repo/src/bmi/samplers/_tfp/_core.py:43). -/
inductive Truth where
  | bool (b : Bool)
  | array (bs : List Bool)

/-- `n_points < 1` (/repo/src/bmi/samplers/_tfp/_core.py:43).  A key is an array of numbers, its words, and arrays are compared
entry by entry. -/
def Arg.lessThanOne (words : Key → List ℤ) : Arg Key → Truth
  | .int n => .bool (decide (n < 1))
  | .key k => .array ((words k).map fun w => decide (w < 1))

/-- The condition of an `if` (/repo/src/bmi/samplers/_tfp/_core.py:43): the truth value of an array with several entries is
ambiguous. -/
def Truth.test : Truth → Except Err Bool
  | .bool b => .ok b
  | .array [b] => .ok b
  | .array _ => .error .valueError

/-- `sample` of `JointDistribution` (/repo/src/bmi/samplers/_tfp/_core.py:36-47) with arguments of any of the two kinds. -/
def callSample (words : Key → List ℤ) (J : JointDistribution Key) (nPoints key : Arg Key) : Except Err (Arr × Arr) := do
  let low ← (nPoints.lessThanOne words).test
  if low then .error .valueError
  else match nPoints, key with
    | .int n, .key k => J.sample n k
    | _, _ => .error .typeError

/-- How a workflow draws `n` points from a distribution with a key
(/repo/workflows/projects/Mixtures/distinct_profiles.smk:43,106). -/
abbrev Draw (Key : Type) := JointDistribution Key → ℤ → Key → Except Err (Arr × Arr)

/-- `dist.sample(key, n)` (/repo/workflows/projects/Mixtures/distinct_profiles.smk:43,106 and
/repo/workflows/projects/Mixtures/pmi_plot_1v1.smk:71). -/
def asWritten (words : Key → List ℤ) : Draw Key := fun J n k => callSample words J (.key k) (.int n)

/-- `dist.sample(n, key)`, the order of the signature (/repo/src/bmi/samplers/_tfp/_core.py:36). -/
def inOrder (words : Key → List ℤ) : Draw Key := fun J n k => callSample words J (.int n) (.key k)

/-! ## distinct_profiles.smk -/

/-- `n_samples` (/repo/workflows/projects/Mixtures/distinct_profiles.smk:23). -/
def nSamples : ℤ := 100000

/-- `correlation` (/repo/workflows/projects/Mixtures/distinct_profiles.smk:24). -/
noncomputable def correlation : ℝ := 0.805

/-- `bivariate_normal` (/repo/workflows/projects/Mixtures/distinct_profiles.smk:26-30). -/
noncomputable def bivariateNormal (R : JaxRandom Key) (T : Tfp Key) : Except Err (JointDistribution Key) :=
  multivariateNormalDistribution R T 1 1 [[1.0, correlation], [correlation, 1.0]] none

/-- A saved file (/repo/workflows/projects/Mixtures/distinct_profiles.smk:46-50): an array of shape `(n, 2, 1)`, of which a pair
of rows is an entry, and the profile. -/
structure Npz where
  samples : List (List ℝ × List ℝ)
  pmiProfile : List EReal

/-- Drawing points and their profile (/repo/workflows/projects/Mixtures/distinct_profiles.smk:42-50,105-112). -/
noncomputable def drawProfile (draw : Draw Key) (R : JaxRandom Key) (J : JointDistribution Key) : Except Err Npz := do
  let xy ← draw J nSamples (R.prngKey 0)
  let pmiProfile ← J.pmi xy.1 xy.2
  .ok ⟨List.zip xy.1 xy.2, pmiProfile⟩

/-- Rule `sample_normal` (/repo/workflows/projects/Mixtures/distinct_profiles.smk:39-50). -/
noncomputable def sampleNormal (draw : Draw Key) (R : JaxRandom Key) (T : Tfp Key) : Except Err Npz := do
  let J ← bivariateNormal R T
  drawProfile draw R J

/-- `icdf_x`, `icdf_y` for a distribution function (/repo/workflows/projects/Mixtures/distinct_profiles.smk:57-58), in real
arithmetic, in which the search always ends (C53). -/
noncomputable def icdf (F : ℝ → ℝ) (u : ℝ) : ℝ := (invertMono realOps F (-100.0) 100.0 1e-4 u).getD 0

/-- The first distribution function (/repo/workflows/projects/Mixtures/distinct_profiles.smk:57). -/
noncomputable def cdfX (x : ℝ) : ℝ := 0.3 * normalCdf (x + 0) + 0.7 * normalCdf (x - 5)

/-- The second distribution function (/repo/workflows/projects/Mixtures/distinct_profiles.smk:58). -/
noncomputable def cdfY (x : ℝ) : ℝ := 0.5 * normalCdf (x + 1) + 0.5 * normalCdf (x - 3)

/-- Rule `sample_transformed_normal` (/repo/workflows/projects/Mixtures/distinct_profiles.smk:53-70) with given inverse
distribution functions; the profile is copied. -/
noncomputable def transformNormal (qx qy : ℝ → ℝ) (old : Npz) : Npz :=
  ⟨old.samples.map fun s => (s.1.map fun x => qx (normalCdf x), s.2.map fun y => qy (normalCdf y)), old.pmiProfile⟩

/-- The rule with the numerical inverse functions (/repo/workflows/projects/Mixtures/distinct_profiles.smk:53-70). -/
noncomputable def sampleTransformedNormal (old : Npz) : Npz := transformNormal (icdf cdfX) (icdf cdfY) old

/-- `width` (/repo/workflows/projects/Mixtures/distinct_profiles.smk:79). -/
noncomputable def width : ℝ := 0.2

/-- The mixture of rule `sample_u_shape` (/repo/workflows/projects/Mixtures/distinct_profiles.smk:81-103). -/
noncomputable def uShape (R : JaxRandom Key) (T : Tfp Key) : Except Err (JointDistribution Key) := do
  let c1 ← multivariateNormalDistribution R T 1 1 (diag [width, 1.0]) (some [-3, 0])
  let c2 ← multivariateNormalDistribution R T 1 1 (diag [1.0, width]) (some [0, -3])
  let c3 ← multivariateNormalDistribution R T 1 1 (diag [width, 1.0]) (some [3, 0])
  mixture T [1 / 3, 1 / 3, 1 / 3] [c1, c2, c3]

/-- Rule `sample_u_shape` (/repo/workflows/projects/Mixtures/distinct_profiles.smk:73-112). -/
noncomputable def sampleUShape (draw : Draw Key) (R : JaxRandom Key) (T : Tfp Key) : Except Err Npz := do
  let J ← uShape R T
  drawProfile draw R J

/-- The figure (/repo/workflows/projects/Mixtures/distinct_profiles.smk:136-177): the points of the three panels, the two profiles
of which the fourth panel shows the histograms, and the position of the dotted line. -/
structure Figure where
  normal : List (List ℝ × List ℝ)
  transformed : List (List ℝ × List ℝ)
  mixture : List (List ℝ × List ℝ)
  profileNormal : List EReal
  profileMixture : List EReal
  line : EReal

open Classical in
/-- Rule `plot_samples` (/repo/workflows/projects/Mixtures/distinct_profiles.smk:122-180).  Comparing with NaN is false, as it is here
for a difference of infinities of equal sign. -/
noncomputable def plotSamples (normal transformed u : Npz) : Except Err Figure :=
  let mi1 := Bmm.mean normal.pmiProfile
  let mi2 := Bmm.mean u.pmiProfile
  if (0.01 : ℝ) < mi1 - mi2 ∨ (0.01 : ℝ) < mi2 - mi1 then .error .valueError
  else .ok
    { normal := normal.samples.take 10000
      transformed := transformed.samples.take 10000
      mixture := u.samples.take 10000
      profileNormal := normal.pmiProfile
      profileMixture := u.pmiProfile
      line := mi1 }

/-- The workflow (/repo/workflows/projects/Mixtures/distinct_profiles.smk:35-180). -/
noncomputable def figure (draw : Draw Key) (R : JaxRandom Key) (T : Tfp Key) : Except Err Figure := do
  let normal ← sampleNormal draw R T
  let u ← sampleUShape draw R T
  plotSamples normal (sampleTransformedNormal normal) u

/-! ## pmi_plot_1v1.smk -/

/-- `tfb.Shift` (/repo/workflows/projects/Mixtures/pmi_plot_1v1.smk:29). -/
noncomputable def shift (c : ℝ) : Bijector := ⟨List.map (· + c), List.map (· - c), fun _ => 0⟩

/-- `DISTRIBUTIONS` (/repo/workflows/projects/Mixtures/pmi_plot_1v1.smk:15-41). -/
noncomputable def distributions {State : Type} (R : JaxRandom Key) (N : NpRandom State) (T : Tfp Key) :
    Except Err (Dict (JointDistribution Key)) := do
  let dispersion05 := [[1.0, 0.5], [0.5, 1.0]]
  let dispersion09 := [[1.0, 0.9], [0.9, 1.0]]
  let covScale : ℝ := 0.5
  let cov := rowsOf (covScale • (1 : Matrix (Fin 2) (Fin 2) ℝ))
  let normal05 ← multivariateNormalDistribution R T 1 1 dispersion05 none
  let normal09 ← multivariateNormalDistribution R T 1 1 dispersion09 none
  let student3 ← multivariateStudentDistribution R N T 1 1 3 dispersion05 none
  let student5 ← multivariateStudentDistribution R N T 1 1 5 dispersion05 none
  let c1 ← multivariateNormalDistribution R T 1 1 cov (some [-1, 1])
  let c2 ← multivariateNormalDistribution R T 1 1 cov (some [1, 1])
  let c3 ← multivariateNormalDistribution R T 1 1 cov (some [1, -1])
  let c4 ← multivariateNormalDistribution R T 1 1 cov (some [-1, -1])
  let mix ← mixture T [0.25, 0.25, 0.25, 0.25] [c1, c2, c3, c4]
  .ok [("Normal-0.5", normal05), ("Normal-0.9", normal09), ("Student-0.5-3", student3), ("Student-0.5-5", student5),
    ("Transformed-Normal-0.5", transform normal05 (some (shift 3.0)) (some .identity)), ("Mixture", mix)]

/-- `np.linspace(-10, 10, 3000)` (/repo/workflows/projects/Mixtures/pmi_plot_1v1.smk:55-56). -/
noncomputable def grid : List ℝ := (List.range 3000).map fun i : ℕ => -10 + (i : ℝ) * (20 / 2999)

/-- What is plotted (/repo/workflows/projects/Mixtures/pmi_plot_1v1.smk:59-84): the image, row by row (a row has one value of `y`),
and the drawn points. -/
structure PmiPlot where
  image : List (List EReal)
  points : Arr × Arr

/-- `"pmi-plot-{distribution}.pdf"` (/repo/workflows/projects/Mixtures/pmi_plot_1v1.smk:47,50). -/
def plotPat : List Tok := [.lit "pmi-plot-".toList, .wild, .lit ".pdf".toList]

/-- Rule `plot_pmi` (/repo/workflows/projects/Mixtures/pmi_plot_1v1.smk:49-91): what is plotted in the file with a given path. -/
noncomputable def plotPmi {State : Type} (draw : Draw Key) (R : JaxRandom Key) (N : NpRandom State) (T : Tfp Key)
    (path : List Char) : Except Fail PmiPlot :=
  match matchPat plotPat path with
  | some [name] => do
    let ds ← lift (distributions R N T)
    let dist ← orRaise .keyError (ds.get (String.ofList name))
    let points ← lift (draw dist 10000 (R.prngKey 0))
    .ok ⟨grid.map fun y => grid.map fun x => dist.pmiAt [x] [y], points⟩
  | _ => .error .noRule

end BMI.Profiles
