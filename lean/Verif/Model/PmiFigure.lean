import Verif.Model.CriticPlots
import Verif.Model.Student

/-!
Model of the figure of pointwise mutual information and trained critics for Student-t and normal pairs
(/repo/workflows/projects/Beyond_Normal/figure_visualise_pointwise_mi.smk).

A figure is what is handed to `scatter`, `imshow` and `set_title`.  Colours, the labels of the two rows of panels and the printed
estimate are left out; a file with arrays is the arrays which are in it.  Numbers are real.  The densities of SciPy and the library under
the neural estimator are parameters.
-/

namespace BMI.PmiFigure

open BMI.Samplers BMI.Student BMI.MatrixUtils BMI.Integration
open BMI.NeuralEstimator (Lib Params Estimator estimateWithInfo Point)
open BMI.Mine (Formula)
open BMI.CriticPlots (linspace matOf)

/-- `pdf` of `stats.multivariate_t` and `stats.multivariate_normal`
(/repo/workflows/projects/Beyond_Normal/figure_visualise_pointwise_mi.smk:22-36, 42-54), with dimension, location and matrix. -/
structure SciPy where
  tPdf : (d : ℕ) → (Fin d → ℝ) → Matrix (Fin d) (Fin d) ℝ → ℝ → (Fin d → ℝ) → ℝ
  normalPdf : (d : ℕ) → (Fin d → ℝ) → Matrix (Fin d) (Fin d) ℝ → (Fin d → ℝ) → ℝ

/-- A number given to SciPy where it expects a matrix
(/repo/workflows/projects/Beyond_Normal/figure_visualise_pointwise_mi.smk:30, 35, 49, 53). -/
def oneByOne (x : ℝ) : Matrix (Fin 1) (Fin 1) ℝ := Matrix.of fun _ _ => x

/-- `student_logpdfratio` (/repo/workflows/projects/Beyond_Normal/figure_visualise_pointwise_mi.smk:21-39). -/
noncomputable def studentLogpdfratio (P : SciPy) (x y df : ℝ) (shape : Matrix (Fin 2) (Fin 2) ℝ) : ℝ :=
  let joint := P.tPdf 2 (fun _ => 0) shape df ![x, y]
  let individualX := P.tPdf 1 (fun _ => 0.0) (oneByOne (shape 0 0)) df ![x]
  let individualY := P.tPdf 1 (fun _ => 0.0) (oneByOne (shape 1 1)) df ![y]
  Real.log joint - Real.log individualX - Real.log individualY

/-- `gaussian_logpdfratio` (/repo/workflows/projects/Beyond_Normal/figure_visualise_pointwise_mi.smk:42-57). -/
noncomputable def gaussianLogpdfratio (P : SciPy) (x y : ℝ) (shape : Matrix (Fin 2) (Fin 2) ℝ) : ℝ :=
  let joint := P.normalPdf 2 (fun _ => 0) shape ![x, y]
  let individualX := P.normalPdf 1 (fun _ => 0.0) (oneByOne (shape 0 0)) ![x]
  let individualY := P.normalPdf 1 (fun _ => 0.0) (oneByOne (shape 1 1)) ![y]
  Real.log joint - Real.log individualX - Real.log individualY

/-- `RADIUS` (/repo/workflows/projects/Beyond_Normal/figure_visualise_pointwise_mi.smk:59). -/
def radius : ℝ := 5

/-- The parameters of `InfoNCEEstimator()` (/repo/workflows/projects/Beyond_Normal/figure_visualise_pointwise_mi.smk:62; defaults in
/repo/src/bmi/estimators/neural/_estimators.py:19-28).  The sizes of the layers are a matter of the critic factory. -/
noncomputable def params : Params := ⟨256, 10000, some 0.5, 250, 0.1, true, 42⟩

variable {Key Θ O : Type} [NormedAddCommGroup Θ] [NormedSpace ℝ Θ]

/-- `estimator.estimate` and `estimator.trained_critic`
(/repo/workflows/projects/Beyond_Normal/figure_visualise_pointwise_mi.smk:62-68); without training the critic is `None` and `jax.vmap`
raises `TypeError`. -/
noncomputable def trainedCritic (lib : Lib Key Θ O) (ε : ℝ) (formula formulaTest : Formula Point Point) (xs ys : Arr) :
    Except Err Critic := do
  let est ← NeuralEstimator.mk (Θ := Θ) params
  let (_, est) ← estimateWithInfo lib ε formula formulaTest est (matOf 1 xs) (matOf 1 ys)
  match est.trainedCritic with
  | none => .error .typeError
  | some θ => .ok (lib.call θ)

/-- The arrays made by `get_data` (/repo/workflows/projects/Beyond_Normal/figure_visualise_pointwise_mi.smk:78-83). -/
structure Arrays where
  samplesX : Arr
  samplesY : Arr
  pmiTrue : List (List ℝ)
  pmiCritic : List (List ℝ)

/-- `get_data` (/repo/workflows/projects/Beyond_Normal/figure_visualise_pointwise_mi.smk:61-83).  `meshgrid` with its default
`indexing="xy"` gives for each `y` a row in which the second numbers are all `y` and the first run through `xs`. -/
noncomputable def getData {State : Type} (lib : Lib Key Θ O) (ε : ℝ) (nce : Formula Point Point × Formula Point Point)
    (task : Sampler State) (logratioTrue : ℝ → ℝ → ℝ) : Except Err Arrays := do
  let (samplesX, samplesY) ← task.sample 10000 (.seed 42)
  let critic ← trainedCritic lib ε nce.1 nce.2 samplesX samplesY
  let xs := linspace (-radius) radius 71
  let ys := linspace (-radius) radius 71
  let pmiCritic := ys.map fun y => xs.map fun x => critic [x] [y]
  let pmiTrue := ys.map fun y => xs.map fun x => logratioTrue x y
  .ok ⟨samplesX.take 1000, samplesY.take 1000, pmiTrue, pmiCritic⟩

/-- The file `arrays/Gauss.npz` (/repo/workflows/projects/Beyond_Normal/figure_visualise_pointwise_mi.smk:137-143): name and arrays.  The
parameter `covariance` of the task is the matrix it is made with (/repo/src/bmi/benchmark/tasks/multinormal.py:57-72). -/
noncomputable def gaussArrays {State : Type} (P : SciPy) (R : JaxRandom State) (lib : Lib Key Θ O) (ε : ℝ)
    (nce : Formula Point Point × Formula Point Point) : Except Err (String × Arrays) := do
  let task ← taskMultinormalDense R 1 1 0.5
  let covariance ← denseMatrix 1 1 0.5
  let shape := toMatrix 2 covariance
  let data ← getData lib ε nce task fun x y => gaussianLogpdfratio P x y shape
  .ok ("Bivariate normal", data)

/-- The file `arrays/Student-{df}.npz` (/repo/workflows/projects/Beyond_Normal/figure_visualise_pointwise_mi.smk:145-152).  The parameter
`dispersion` of the task is the matrix it is made with (/repo/src/bmi/benchmark/tasks/student.py:40-57). -/
noncomputable def studentArrays {K State : Type} (P : SciPy) (R : JaxRandom K) (N : NpRandom State) (lib : Lib Key Θ O) (ε : ℝ)
    (nce : Formula Point Point × Formula Point Point) (df : ℕ) : Except Err (String × Arrays) := do
  let task ← taskStudentDense R N 1 1 df 0.5
  let dispersion ← denseMatrix 1 1 0.5
  let shape := toMatrix 2 dispersion
  let data ← getData lib ε nce task.sampler fun x y => studentLogpdfratio P x y df shape
  .ok ("Bivariate Student, $\\nu=" ++ toString df ++ "$", data)

/-- `s.strip(chars)` (/repo/workflows/projects/Beyond_Normal/figure_visualise_pointwise_mi.smk:124): characters which occur in `chars`
are removed from both ends. -/
def strip (s chars : List Char) : List Char :=
  (((s.dropWhile (chars.contains ·)).reverse).dropWhile (chars.contains ·)).reverse

/-- `s.capitalize()` (/repo/workflows/projects/Beyond_Normal/figure_visualise_pointwise_mi.smk:125). -/
def capitalize : List Char → List Char
  | [] => []
  | c :: s => c.toUpper :: s.map Char.toLower

/-- The title of a column (/repo/workflows/projects/Beyond_Normal/figure_visualise_pointwise_mi.smk:124-126). -/
def titleOf (name : String) : String := String.ofList (capitalize (strip name.toList "Bivariate ".toList))

/-- What `imshow` gets (/repo/workflows/projects/Beyond_Normal/figure_visualise_pointwise_mi.smk:120-121): the rows from the upper edge
of the image to the lower one (the default `origin="upper"`), each from the left to the right, and the coordinates of the left, right,
lower and upper edge. -/
structure Image where
  rows : List (List ℝ)
  left : ℝ
  right : ℝ
  bottom : ℝ
  top : ℝ

/-- A column of the figure: its title, the points in both panels, and the upper and the lower image. -/
structure Column where
  title : String
  points : List (ℝ × ℝ)
  pmi : Image
  critic : Image

/-- A column (/repo/workflows/projects/Beyond_Normal/figure_visualise_pointwise_mi.smk:111-126); `scatter` flattens the arrays of
points. -/
noncomputable def column (file : String × Arrays) : Column where
  title := titleOf file.1
  points := file.2.samplesX.flatten.zip file.2.samplesY.flatten
  pmi := ⟨file.2.pmiTrue, -radius, radius, radius, -radius⟩
  critic := ⟨file.2.pmiCritic, -radius, radius, radius, -radius⟩

/-- The rule `plot` with the files it asks for (/repo/workflows/projects/Beyond_Normal/figure_visualise_pointwise_mi.smk:97-131): the
columns from the left to the right. -/
noncomputable def figure {K State : Type} (P : SciPy) (R : JaxRandom K) (N : NpRandom State) (lib : Lib Key Θ O) (ε : ℝ)
    (nce : Formula Point Point × Formula Point Point) : Except Err (List Column) := do
  let students ← [1, 2, 3, 5, 10].mapM (studentArrays P R N lib ε nce)
  let gauss ← gaussArrays P R lib ε nce
  .ok ((students ++ [gauss]).map column)

end BMI.PmiFigure
