import Verif.Model.Sparsity
import Verif.Model.HighMi
import Mathlib.Analysis.SpecialFunctions.Log.Base

/-!
Model of the workflow and the two figures between dense and sparse interactions
(/repo/workflows/projects/Beyond_Normal/figure_sparsity.smk with _core_rules.smk and _common_figure_utils.py).

The list of tasks and `params_to_lvm` are those of Sparsity.lean, the rules for the results those of Workflow.lean, `plot_mi` that of
MiFigure.lean, the surroundings those of HighMi.lean.  As there, the file results.csv is the list of its lines, and numbers and strings
survive being written and read.  Of the heatmaps the titles, the correlations and the positions of the lines and ticks are kept; both go from
the shade of 0 to the shade of 1.
-/

namespace BMI.SparsityFigure

open BMI.Samplers BMI.Search BMI.Student
open BMI.Concept (fixed)
open BMI.Training (Fl)
open BMI.Task (Task)
open BMI.Run (Dict)
open BMI.Workflow (Line)
open BMI.ReadResults (PVal)
open BMI.MiFigure (Row Fig plotMi number below column)
open BMI.TaskIds (Call Format)
open BMI.HighMi (World)

variable {Key V : Type}

/-- `DESIRED_MUTUAL_INFORMATION` (/repo/workflows/projects/Beyond_Normal/figure_sparsity.smk:13). -/
noncomputable def desired : ℝ := 1.0

/-- `DIM` (/repo/workflows/projects/Beyond_Normal/figure_sparsity.smk:14). -/
def dim : ℕ := 10

/-- The object made by `task_multinormal_lvm` (/repo/src/bmi/benchmark/tasks/multinormal.py:38-48) for the parameters and the sampler of
Sparsity.lean. -/
noncomputable def toTask (fm : Format ℝ) (t : Call ℝ × Sampler Key) : Task ℝ ℝ (String × PVal ℝ) where
  sampler :=
    { dimX := t.2.dimX
      dimY := t.2.dimY
      mi := .ok (.num t.2.mi)
      sample := fun n seed => (t.2.sample n (.seed seed)).map fun xy => (CoolTasks.ndarray xy.1, CoolTasks.ndarray xy.2) }
  taskId := String.ofList (t.1.id fm)
  taskName := "Multinormal " ++ toString dim ++ " × " ++ toString dim ++ " (LVM)"
  params := some (ReadResults.params 1 t.1)

/-- `TASKS` (/repo/workflows/projects/Beyond_Normal/figure_sparsity.smk:19-26); `eps` is that of `StandardScaler`. -/
noncomputable def tasks (R : JaxRandom Key) (uniform : ℝ → ℝ → ℕ → ℝ) (fm : Format ℝ) (eps : ℝ) :
    Except Err (List (String × Task ℝ ℝ (String × PVal ℝ))) := do
  let ts ← Sparsity.taskList R uniform desired dim
  let d ← Workflow.tasksDict (ts.map (toTask fm))
  Scaling.scaleTasks eps d

/-- The configuration (/repo/workflows/projects/Beyond_Normal/figure_sparsity.smk:17,26-29). -/
def config (E : World V) (ts : List (String × Task ℝ ℝ (String × PVal ℝ))) : Workflow.Config ℝ (Fl ℝ) V ℝ (String × PVal ℝ) where
  estimators := MiFigure.estimators.map fun i => (i, E.est i)
  tasks := ts.map Prod.snd
  ns := [10000]
  seeds := (List.range 5).map fun i : ℕ => (i : ℤ)
  nan := .nan
  str := E.str
  csv := E.csv
  yaml := E.yaml
  measured := E.measured

/-- A panel (/repo/workflows/projects/Beyond_Normal/figure_sparsity.smk:50-62): the label of the horizontal axis, whether that axis goes from
right to left, and what is drawn. -/
structure Panel where
  label : String
  reversed : Bool
  fig : Fig

open Classical in
/-- Rule `figure_estimates` (/repo/workflows/projects/Beyond_Normal/figure_sparsity.smk:38-65). -/
noncomputable def figureEstimates (lines : List (Line ℝ (Fl ℝ) V (String × PVal ℝ))) : Except Err (Panel × Panel) := do
  let results := lines.filter (below 3.0)
  let frame := fun (ls : List (Line ℝ (Fl ℝ) V (String × PVal ℝ))) (col : String) => ls.map fun l =>
    (⟨l.result.estimatorId, column l.taskParams col, number l.result.mi, number l.miTrue⟩ : Row)
  let data := results.filter fun l => decide (column l.taskParams "n_interacting" = some (dim : ℝ))
  let left ← plotMi MiFigure.estimatorColors MiFigure.estimatorNames true (frame data "alpha")
  let data := results.filter fun l => decide (column l.taskParams "alpha" = some 0.0)
  let right ← plotMi MiFigure.estimatorColors MiFigure.estimatorNames true (frame data "n_interacting")
  .ok (⟨"$\\alpha$", true, left⟩, ⟨"Num. of interactions", true, right⟩)

/-- Rule `results` with the rules it needs (/repo/workflows/projects/Beyond_Normal/_core_rules.smk:16-68), then `figure_estimates`. -/
noncomputable def workflow (E : World V) (ts : List (String × Task ℝ ℝ (String × PVal ℝ))) :
    Except Workflow.Fail (List (Line ℝ (Fl ℝ) V (String × PVal ℝ)) × Panel × Panel) := do
  let lines ← Workflow.results (config E ts)
  let figs ← Workflow.lift (figureEstimates lines)
  .ok (lines, figs)

/-! ## The matrices -/

/-- A heatmap (/repo/workflows/projects/Beyond_Normal/figure_sparsity.smk:108-116): the title, the rows of the matrix, the shades of 0 and 1
at the ends `vmin` and `vmax`, the place of the lines, and the ticks. -/
structure Heatmap where
  title : String
  matrix : List (List ℝ)
  vmin : ℝ
  vmax : ℝ
  line : ℕ
  ticks : List (ℕ × String)

/-- `format(v, ".{p}")` (/repo/workflows/projects/Beyond_Normal/figure_sparsity.smk:98-100): `p` significant digits.  Only for positive numbers
which need at least one digit after the point and whose last shown digit is not zero. -/
noncomputable def significant (p : ℕ) (v : ℝ) : String := fixed ((p : ℤ) - 1 - ⌊Real.logb 10 v⌋).toNat v

/-- Rule `figure_matrices` (/repo/workflows/projects/Beyond_Normal/figure_sparsity.smk:80-119).  There are six axes. -/
noncomputable def figureMatrices (R : JaxRandom Key) (uniform : ℝ → ℝ → ℕ → ℝ) : Except Err (List Heatmap) := do
  let initialAlpha ← Sparsity.getInitialAlpha R uniform desired dim
  let t1 ← Sparsity.getLambdaTask R uniform desired dim initialAlpha
  let t2 ← Sparsity.getLambdaTask R uniform desired dim (0.8 * initialAlpha)
  let t3 ← Sparsity.getLambdaTask R uniform desired dim (0.4 * initialAlpha)
  let t4 ← Sparsity.getNInteractingTask R uniform desired dim dim
  let t5 ← Sparsity.getNInteractingTask R uniform desired dim (dim / 2 : ℕ)
  let t6 ← Sparsity.getNInteractingTask R uniform desired dim 1
  let labels := ["$\\alpha$=" ++ significant 2 initialAlpha, "$\\alpha$=" ++ significant 1 (0.8 * initialAlpha),
    "$\\alpha$=" ++ significant 1 (0.4 * initialAlpha), "$K$=" ++ toString dim, "$K$=" ++ toString (dim / 2), "$K$=" ++ toString 1]
  let matrices ← [t1, t2, t3, t4, t5, t6].mapM fun t => do
    let m ← Sparsity.paramsToLvm dim (ReadResults.params 1 t.1)
    let r ← m.correlation
    .ok (rowsOf r)
  .ok ((labels.zip matrices).map fun lm =>
    ⟨lm.1, lm.2, 0, 1, dim, [(dim / 2, "$X$"), (dim / 2 + dim, "$Y$")]⟩)

end BMI.SparsityFigure
