import Verif.Model.Search
import Verif.Model.Concept
import Verif.Model.CoolTasks

/-!
Model of the figure with growing mutual information (/repo/workflows/projects/Beyond_Normal/figure_high_mi.smk with
_high_mi_utils.py, _core_rules.smk and _common_figure_utils.py).

The searches are those of Search.lean, the rules for the results those of Workflow.lean, `plot_mi` that of MiFigure.lean.  As there, the
file results.csv is the list of its lines, and numbers and strings survive being written and read.  Reading the metadata of a task before it
is transformed cannot raise, because the mutual information of a normal sampler is not negative.
-/

namespace BMI.HighMi

open BMI.Samplers BMI.Search
open BMI.Concept (fixed)
open BMI.Training (Fl)
open BMI.Task (Task)
open BMI.Run (Dict)
open BMI.Workflow (Line Est)
open BMI.ReadResults (lookup)
open BMI.MiFigure (Row Fig plotMi number)

variable {Key V : Type}

/-- A value in `task_params` (/repo/workflows/projects/Beyond_Normal/_high_mi_utils.py:110-116,
/repo/src/bmi/benchmark/tasks/spiral.py:42). -/
inductive Param where
  | float (a : ℝ)
  | int (n : ℤ)
  | bool (b : Bool)
  | str (s : String)

/-- A task (/repo/src/bmi/benchmark/task.py:23-34). -/
structure Made (Key : Type) where
  sampler : Sampler Key
  id : String
  name : String
  params : Dict Param

/-- `generate_sparse_gaussian_task` (/repo/workflows/projects/Beyond_Normal/_high_mi_utils.py:88-119).  The argument `noise` is not used by
the code. -/
noncomputable def sparseGaussian (R : JaxRandom Key) (uniform : ℝ → ℝ → ℕ → ℝ) (mi : ℝ) (familyName : String) (dim : ℤ) :
    Except Err (Option (Made Key)) := do
  let corr ← binsearch realOps (fun c => miSparseGaussian R c dim) mi 0 1 1e-4 5000 uniform
  match corr with
  | none => .ok none
  | some corr => do
    let sampler ← getSparseGaussianSampler R corr dim
    .ok (some ⟨sampler, "sparse-gaussian-" ++ fixed 3 mi, "Gaussian with " ++ fixed 2 mi ++ " MI",
      [("correlation", .float corr), ("desired_mi", .float mi), ("true_mi", .float sampler.mi), ("dim", .int dim),
       ("family_name", .str familyName)]⟩)

/-- `generate_spiral_task` (/repo/workflows/projects/Beyond_Normal/_high_mi_utils.py:125-147) with
/repo/src/bmi/benchmark/tasks/spiral.py:38-43. -/
noncomputable def spiral (R : JaxRandom Key) (uniform : ℝ → ℝ → ℕ → ℝ) (mi : ℝ) (familyName : String) (dim : ℤ) (speed : ℝ) :
    Except Err (Option (Made Key)) := do
  let base ← sparseGaussian R uniform mi familyName dim
  match base with
  | none => .ok none
  | some base => do
    let sampler ← spiralTask base.sampler speed true
    .ok (some ⟨sampler, "spiral-" ++ base.id, "Spiral with " ++ fixed 2 mi ++ " MI",
      base.params.update [("speed", .float speed), ("normalize_speed", .bool true)]⟩)

/-- `generate_half_cube_task` (/repo/workflows/projects/Beyond_Normal/_high_mi_utils.py:155-172) with
/repo/src/bmi/benchmark/tasks/half_cube.py:20-25. -/
noncomputable def halfCube (R : JaxRandom Key) (uniform : ℝ → ℝ → ℕ → ℝ) (mi : ℝ) (familyName : String) (dim : ℤ) :
    Except Err (Option (Made Key)) := do
  let base ← sparseGaussian R uniform mi familyName dim
  match base with
  | none => .ok none
  | some base => do
    let sampler ← halfCubeTask base.sampler
    .ok (some ⟨sampler, "half_cube-" ++ base.id, "Half-cube with " ++ fixed 2 mi ++ " MI", base.params⟩)

/-- `DESIRED_MUTUAL_INFORMATION` (/repo/workflows/projects/Beyond_Normal/figure_high_mi.smk:14). -/
noncomputable def desired : List ℝ := [0, 0.5, 1.0, 1.5, 2.0, 3.0, 4.0, 5.0]

/-- `DISTRIBUTION_FAMILIES` (/repo/workflows/projects/Beyond_Normal/figure_high_mi.smk:26-30). -/
noncomputable def families (R : JaxRandom Key) (uniform : ℝ → ℝ → ℕ → ℝ) : List (String × (ℝ → String → Except Err (Option (Made Key)))) :=
  [("Sparse Gaussian", fun mi f => sparseGaussian R uniform mi f 3), ("Spiral", fun mi f => spiral R uniform mi f 3 (1 / 3)),
   ("Half-cube", fun mi f => halfCube R uniform mi f 3)]

/-- `TASK_LIST` (/repo/workflows/projects/Beyond_Normal/figure_high_mi.smk:32-37). -/
noncomputable def taskList (R : JaxRandom Key) (uniform : ℝ → ℝ → ℕ → ℝ) : Except Err (List (Made Key)) := do
  let raw ← ((families R uniform).flatMap fun f => desired.map fun mi => (f, mi)).mapM fun p => p.1.2 p.2 p.1.1
  .ok (raw.filterMap id)

/-- The object made by `bmi.benchmark.Task` (/repo/workflows/projects/Beyond_Normal/_high_mi_utils.py:108-119). -/
noncomputable def Made.task (m : Made Key) : Task ℝ ℝ (String × Param) where
  sampler :=
    { dimX := m.sampler.dimX
      dimY := m.sampler.dimY
      mi := .ok (.num m.sampler.mi)
      sample := fun n seed => (m.sampler.sample n (.seed seed)).map fun xy => (CoolTasks.ndarray xy.1, CoolTasks.ndarray xy.2) }
  taskId := m.id
  taskName := m.name
  params := some m.params

/-- `TASKS` (/repo/workflows/projects/Beyond_Normal/figure_high_mi.smk:40); `eps` is that of `StandardScaler`. -/
noncomputable def tasks (R : JaxRandom Key) (uniform : ℝ → ℝ → ℕ → ℝ) (eps : ℝ) : Except Err (List (String × Task ℝ ℝ (String × Param))) := do
  let ts ← taskList R uniform
  let d ← Workflow.tasksDict (ts.map Made.task)
  Scaling.scaleTasks eps d

/-- The surroundings: the estimators (/repo/workflows/projects/Beyond_Normal/_common_figure_utils.py:18-37), strings as dictionary values,
floats as read back from the file with the sample, dictionaries as read back from YAML, the timer. -/
structure World (V : Type) where
  est : String → Est (Fl ℝ) V ℝ
  str : String → V
  csv : ℝ → ℝ
  yaml : Dict V → Except Err (Dict V)
  measured : List Char → Fl ℝ

/-- The configuration (/repo/workflows/projects/Beyond_Normal/figure_high_mi.smk:16,40-43). -/
def config (E : World V) (ts : List (String × Task ℝ ℝ (String × Param))) : Workflow.Config ℝ (Fl ℝ) V ℝ (String × Param) where
  estimators := MiFigure.estimators.map fun i => (i, E.est i)
  tasks := ts.map Prod.snd
  ns := [10000]
  seeds := (List.range 5).map fun i : ℕ => (i : ℤ)
  nan := .nan
  str := E.str
  csv := E.csv
  yaml := E.yaml
  measured := E.measured

/-- A parameter as an entry of a column of numbers (/repo/workflows/projects/Beyond_Normal/figure_high_mi.smk:61). -/
def Param.number : Param → Option ℝ
  | .float a => some a
  | .int n => some n
  | _ => none

/-- The columns `desired_mi` and `family` (/repo/workflows/projects/Beyond_Normal/figure_high_mi.smk:61-62).  Simplification: a family which
is not a string raises at once. -/
def rowOf (l : Line ℝ (Fl ℝ) V (String × Param)) : Except Err (String × Row) := do
  let d ← lookup l.taskParams "desired_mi"
  let f ← lookup l.taskParams "family_name"
  match f with
  | .str f => .ok (f, ⟨l.result.estimatorId, d.number, number l.result.mi, number l.miTrue⟩)
  | _ => .error .typeError

/-- Rule `plot` (/repo/workflows/projects/Beyond_Normal/figure_high_mi.smk:53-77): titles and panels; there are three axes. -/
noncomputable def plot (lines : List (Line ℝ (Fl ℝ) V (String × Param))) : Except Err (List (String × Fig)) := do
  let data ← lines.mapM rowOf
  ((CoolTasks.groupKeys (data.map Prod.fst)).take 3).mapM fun family => do
    let f ← plotMi MiFigure.estimatorColors MiFigure.estimatorNames true ((data.filter fun r => r.1 == family).map Prod.snd)
    .ok (family, f)

/-- Rule `results` with the rules it needs (/repo/workflows/projects/Beyond_Normal/_core_rules.smk:16-68), then `plot`. -/
noncomputable def workflow (E : World V) (ts : List (String × Task ℝ ℝ (String × Param))) :
    Except Workflow.Fail (List (Line ℝ (Fl ℝ) V (String × Param)) × List (String × Fig)) := do
  let lines ← Workflow.results (config E ts)
  let figs ← Workflow.lift (plot lines)
  .ok (lines, figs)

end BMI.HighMi
