import Verif.Model.Transforms
import Verif.Model.Student
import Verif.Model.Workflow
import Verif.Model.ReadResults

/-!
Model of the figures which show estimates against a parameter of the tasks: `plot_mi`
(/repo/workflows/projects/Beyond_Normal/_common_figure_utils.py:114-156), the figure of spirals
(/repo/workflows/projects/Beyond_Normal/figure_spiral.smk with scripts/plot_spiral.py) and the figure of long tails
(/repo/workflows/projects/Beyond_Normal/figure_tails.smk).

A data frame is the list of its rows; NaN is `none`.  The file results.csv is the list of its lines (Workflow.lean); floats survive being
written and read.  pandas semantics that is assumed: `groupby` makes a group for each key that occurs, in increasing order, and leaves out
rows whose key is NaN; `mean` skips NaN; `std` has `ddof=1` and is NaN for fewer than two numbers; comparisons with NaN are false.
Of a figure the curves with their colours and labels and the bands are kept; sizes, transparency and titles of the axes are left out.
-/

namespace BMI.MiFigure

open BMI.Samplers BMI.Student
open BMI.Training (Fl)
open BMI.Run (Dict)
open BMI.Workflow (Line)
open BMI.ReadResults (PVal lookup)

/-- `ESTIMATORS` (/repo/workflows/projects/Beyond_Normal/_common_figure_utils.py:18-37): the identifiers. -/
def estimators : List String :=
  ["MINE", "InfoNCE", "NWJ", "Donsker-Varadhan", "R-KSG-I-10", "R-LNN", "Julia-Hist-10", "Julia-Transfer-30", "CCA"]

/-- `ESTIMATOR_COLORS` (/repo/workflows/projects/Beyond_Normal/_common_figure_utils.py:39-49). -/
def estimatorColors : Dict String :=
  [("MINE", "purple"), ("InfoNCE", "magenta"), ("Donsker-Varadhan", "red"), ("NWJ", "orangered"), ("R-KSG-I-10", "mediumblue"),
   ("R-LNN", "goldenrod"), ("Julia-Hist-10", "limegreen"), ("Julia-Transfer-30", "green"), ("CCA", "grey")]

/-- `ESTIMATOR_NAMES` (/repo/workflows/projects/Beyond_Normal/_common_figure_utils.py:53-66). -/
def estimatorNames : Dict String :=
  [("MINE", "MINE"), ("InfoNCE", "InfoNCE"), ("Donsker-Varadhan", "D-V"), ("NWJ", "NWJ"), ("R-KSG-I-10", "KSG I (R)"),
   ("R-LNN", "LNN (R)"), ("R-BNSL", "BNSL (R)"), ("Julia-Hist-10", "Hist. (Julia)"), ("Julia-Transfer-30", "Transfer (Julia)"),
   ("Julia-Kernel", "Kernel (Julia)"), ("CCA", "CCA")]

/-! ## `plot_mi` -/

/-- The columns of the results used by `plot_mi`: the estimator, the column `x_col`, the estimate and the true value
(/repo/workflows/projects/Beyond_Normal/_common_figure_utils.py:126-148). -/
structure Row where
  est : String
  x : Option ℝ
  mi : Option ℝ
  miTrue : Option ℝ

/-- The keys of `groupby(x_col)` (/repo/workflows/projects/Beyond_Normal/_common_figure_utils.py:127,135,145). -/
noncomputable def xKeys (rows : List Row) : List ℝ := (rows.filterMap Row.x).dedup.mergeSort fun a b => decide (a ≤ b)

/-- The keys of `groupby("estimator_id")` (/repo/workflows/projects/Beyond_Normal/_common_figure_utils.py:126). -/
def estKeys (rows : List Row) : List String := (rows.map Row.est).dedup.mergeSort fun a b => decide (a ≤ b)

/-- The group of a key (/repo/workflows/projects/Beyond_Normal/_common_figure_utils.py:127,135,145). -/
noncomputable def xGroup (rows : List Row) (x : ℝ) : List Row := rows.filter fun r => decide (r.x = some x)

/-- A curve with its band (/repo/workflows/projects/Beyond_Normal/_common_figure_utils.py:128-143).  A point without height, and a place of
the band without limits, are gaps. -/
structure Curve where
  color : String
  label : String
  points : List (ℝ × Option ℝ)
  band : List (ℝ × Option (ℝ × ℝ))

/-- What `plot_mi` draws (/repo/workflows/projects/Beyond_Normal/_common_figure_utils.py:126-154): the curves of the estimators, the dotted
curve, and the lower end of the vertical axis. -/
structure Fig where
  curves : List Curve
  truth : List (ℝ × Option ℝ)
  bottom : ℝ

/-- `mean - std` and `mean + std` (/repo/workflows/projects/Beyond_Normal/_common_figure_utils.py:138-139). -/
noncomputable def bandOf (vs : List (Option ℝ)) : Option (ℝ × ℝ) :=
  match Tables.mean vs, ReadResults.std vs with
  | some m, some s => some (m - s, m + s)
  | _, _ => none

/-- The body of the loop (/repo/workflows/projects/Beyond_Normal/_common_figure_utils.py:126-143). -/
noncomputable def curve (colors names : Dict String) (plotStd : Bool) (rows : List Row) (e : String) : Except Err Curve := do
  let data := rows.filter fun r => r.est == e
  let dataMean := (xKeys data).map fun x => (x, Tables.mean ((xGroup data x).map Row.mi))
  let color ← lookup colors e
  let label ← lookup names e
  let band := if plotStd then (xKeys data).map fun x => (x, bandOf ((xGroup data x).map Row.mi)) else []
  .ok ⟨color, label, dataMean, band⟩

/-- `plot_mi` (/repo/workflows/projects/Beyond_Normal/_common_figure_utils.py:114-156) for a column that exists. -/
noncomputable def plotMi (colors names : Dict String) (plotStd : Bool) (rows : List Row) : Except Err Fig := do
  let curves ← (estKeys rows).mapM (curve colors names plotStd rows)
  let truth := (xKeys rows).map fun x => (x, Tables.mean ((xGroup rows x).map Row.miTrue))
  .ok ⟨curves, truth, 0⟩

/-! ## The figure of spirals -/

variable {Key State V : Type}

/-- `spiral_task` (/repo/workflows/projects/Beyond_Normal/figure_spiral.smk:16-37): the sampler of the task. -/
noncomputable def spiralPlaneTask (R : JaxRandom Key) (speed correlation : ℝ) : Except Err (Sampler Key) := do
  let covariance : Arr := [[1, 0, correlation], [0, 1, 0], [correlation, 0, 1]]
  let generator ← soGenerator 2 0 1
  let base ← splitMultinormal R 2 1 covariance none
  let s ← spiral ⟨2, 2, generator⟩ none speed
  transformed base (.row s.row) .none 0 0

/-- `TASK_LIST` (/repo/workflows/projects/Beyond_Normal/figure_spiral.smk:44-48): identifiers, as Python prints them (line 36), and
speeds; the correlation is 0.8. -/
noncomputable def taskList : List (String × ℝ) :=
  [("spiral-0.8-0.0", 0.0), ("spiral-0.8-0.1", 0.1), ("spiral-0.8-0.3", 0.3), ("spiral-0.8-0.5", 0.5), ("spiral-0.8-0.7", 0.7),
   ("spiral-0.8-1.0", 1.0), ("spiral-0.8-1.5", 1.5)]

/-- `find_speed` (/repo/workflows/projects/Beyond_Normal/figure_spiral.smk:64-68). -/
noncomputable def findSpeed (taskId : String) : Except Err ℝ :=
  match taskList.find? fun t => t.1 == taskId with
  | some t => .ok t.2
  | none => .error .keyError

/-- A float as a number or NaN (columns read at /repo/workflows/projects/Beyond_Normal/_common_figure_utils.py:76). -/
def number : Fl ℝ → Option ℝ
  | .nan => none
  | .num a => some a

/-- `results["mi_estimate"] < max_mi_estimate` (/repo/workflows/projects/Beyond_Normal/_common_figure_utils.py:99-100). -/
noncomputable def below {P : Type} (maxEstimate : ℝ) (l : Line ℝ (Fl ℝ) V P) : Bool :=
  match number l.result.mi with
  | some v => decide (v < maxEstimate)
  | none => false

/-- Rule `plot_performance` (/repo/workflows/projects/Beyond_Normal/figure_spiral.smk:70-82). -/
noncomputable def spiralFigure {P : Type} (lines : List (Line ℝ (Fl ℝ) V P)) : Except Err Fig := do
  let rows ← (lines.filter (below 3)).mapM fun l => do
    let speed ← findSpeed l.result.taskId
    .ok ⟨l.result.estimatorId, some speed, number l.result.mi, number l.miTrue⟩
  plotMi estimatorColors estimatorNames true rows

/-! ## The figure of long tails -/

/-- `np.linspace(1, 5, 10)` (/repo/workflows/projects/Beyond_Normal/figure_tails.smk:23). -/
noncomputable def exponents : List ℝ := (List.range 10).map fun i : ℕ => 1 + (i : ℝ) * ((5 - 1) / (10 - 1))

/-- `range(1, 21, 2)` (/repo/workflows/projects/Beyond_Normal/figure_tails.smk:26). -/
def degrees : List ℕ := (List.range 10).map fun i => 1 + 2 * i

/-- A task of the first list (/repo/workflows/projects/Beyond_Normal/figure_tails.smk:21-24): its sampler. -/
noncomputable def tailNormal (R : JaxRandom Key) (alpha : ℝ) : Except Err (Sampler Key) := do
  let base ← taskMultinormal2pair R 3 3 2
  powerTask base alpha

/-- A task of the second list (/repo/workflows/projects/Beyond_Normal/figure_tails.smk:24-27): its sampler. -/
noncomputable def tailStudent (R : JaxRandom Key) (N : NpRandom State) (df : ℕ) : Except Err (Sampler State) := do
  let t ← taskStudent2pair R N 3 3 df 2
  .ok t.sampler

/-- A column made of a parameter of the tasks (`row_dict |= row_dict["task_params"]`,
/repo/workflows/projects/Beyond_Normal/_common_figure_utils.py:87-89); NaN where the task has no such parameter.  Booleans and matrices,
which are not used as columns, are sent to NaN, too. -/
noncomputable def column (params : Dict (PVal ℝ)) (k : String) : Option ℝ :=
  match params.get k with
  | some (.float a) => some a
  | some (.int n) => some n
  | _ => none

/-- Rule `figure_tails` (/repo/workflows/projects/Beyond_Normal/figure_tails.smk:42-56): both panels. -/
noncomputable def tailFigure (lines : List (Line ℝ (Fl ℝ) V (String × PVal ℝ))) : Except Err (Fig × Fig) := do
  let results := lines.filter (below 3)
  let frame := fun col : String => results.map fun l =>
    (⟨l.result.estimatorId, column l.taskParams col, number l.result.mi, number l.miTrue⟩ : Row)
  let left ← plotMi estimatorColors estimatorNames true (frame "alpha")
  let right ← plotMi estimatorColors estimatorNames true (frame "dof")
  .ok (left, right)

/-! ## scripts/plot_spiral.py -/

/-- `np.random.default_rng(seed)` (/repo/workflows/projects/Beyond_Normal/scripts/plot_spiral.py:27): `uniform seed k a b n` is the `k`-th
call on a new generator, `normal seed sx sy n` the points drawn at line 37 with variances `sx` and `sy`. -/
structure Generator where
  uniform : ℤ → ℕ → ℝ → ℝ → ℕ → List ℝ
  normal : ℤ → ℝ → ℝ → ℕ → List (ℝ × ℝ)

/-- `get_points` (/repo/workflows/projects/Beyond_Normal/scripts/plot_spiral.py:11-37). -/
def getPoints (G : Generator) (seed : ℤ) (xScale yScale : ℝ) (sampleUniform : Bool) (n : ℕ) : List (ℝ × ℝ) :=
  if sampleUniform then (G.uniform seed 0 (-xScale) xScale n).zip (G.uniform seed 1 (-yScale) yScale n)
  else G.normal seed xScale yScale n

/-- `get_transformed_points` (/repo/workflows/projects/Beyond_Normal/scripts/plot_spiral.py:40-43). -/
noncomputable def transformedPoints (points : List (ℝ × ℝ)) (speed : ℝ) : Except Err (List (ℝ × ℝ)) := do
  let generator ← soGenerator 2 0 1
  let s ← spiral ⟨2, 2, generator⟩ none speed
  .ok (points.map fun p => let q := s.row [p.1, p.2]; (q.getD 0 0, q.getD 1 0))

/-- A cloud of points with its label and colour (/repo/workflows/projects/Beyond_Normal/scripts/plot_spiral.py:67-92). -/
structure Cloud where
  label : String
  color : String
  points : List (ℝ × ℝ)

/-- `main` with `plot` (/repo/workflows/projects/Beyond_Normal/scripts/plot_spiral.py:46-49,52-127): the clouds and the limit of both axes,
which reach from `-2.1` to `2.1` (lines 59-60).  The speeds are paired with how they are printed (line 86). -/
noncomputable def plotSpiral (G : Generator) : Except Err (List Cloud × ℝ) := do
  let colors := ["green", "goldenrod", "orangered"]
  let points := getPoints G 42 2 5e-2 true 2000
  let speedList : List (String × ℝ) := [("0.5", 0.5), ("1.5", 1.5)]
  let transformed ← speedList.mapM fun s => do
    let ps ← transformedPoints points s.2
    .ok (s.1, ps)
  let rest := List.zipWith (fun c (s : String × List (ℝ × ℝ)) => (⟨"Speed " ++ s.1, c, s.2⟩ : Cloud))
    ((colors.drop 1).take transformed.length) transformed
  .ok (⟨"Original", colors.headD "", points⟩ :: rest, 2.1)

end BMI.MiFigure
