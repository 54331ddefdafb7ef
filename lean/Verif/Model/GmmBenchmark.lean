import Verif.Model.Workflow
import Verif.Model.Configs
import Verif.Model.Scaling
import Mathlib.Data.EReal.Basic

/-!
Model of the benchmark of the mixture model estimator (/repo/workflows/projects/Mixtures/gmm_benchmark.smk).  Assumptions on Snakemake
are those of the benchmark workflow.  The posterior of the estimator is a parameter; the limit on memory is left out.  The CSV file
with the results is the list of its rows.
-/

namespace BMI.GmmBenchmark

open BMI.Training (Fl)
open BMI.Task (Task)
open BMI.Run (Dict)
open BMI.SampleIO (readSample)
open BMI.Workflow
open BMI.TaskIds (Call)

/-- `TASKS` (/repo/workflows/projects/Mixtures/gmm_benchmark.smk:21-42). -/
def calls : List (Call CfgF) :=
  [.additive .f0_75, .mixX .f0_9, .mixAI, .galaxy .f0_5 .f3_0,
   .concentric 3 5, .concentric 5 5, .concentric 3 10, .concentric 5 10,
   .inliers 5 5 2 .f2_0 .f0_2, .inliers 5 5 2 .f2_0 .f0_5,
   .dense 5 5 .f0_5, .sparse 5 5 2 .f2_0,
   .asinh (.studentIdentity 1 1 1), .asinh (.studentIdentity 2 2 1), .asinh (.studentIdentity 3 3 2),
   .asinh (.studentIdentity 5 5 2)]

/-- `NAMES` (/repo/workflows/projects/Mixtures/gmm_benchmark.smk:45-67). -/
def names : Dict String :=
  [("1v1-additive-0.75", "Additive"), ("1v1-AI", "AI"), ("1v1-X-0.9", "X"), ("2v1-galaxy-0.5-3.0", "Galaxy"),
   ("3v1-concentric_gaussians-10", "Concentric (3-dim, 10)"), ("3v1-concentric_gaussians-5", "Concentric (3-dim, 5)"),
   ("5v1-concentric_gaussians-10", "Concentric (5-dim, 10)"), ("5v1-concentric_gaussians-5", "Concentric (5-dim, 5)"),
   ("mult-sparse-w-inliers-5-5-2-2.0-0.2", "Inliers (5-dim, 0.2)"), ("mult-sparse-w-inliers-5-5-2-2.0-0.5", "Inliers (5-dim, 0.5)"),
   ("multinormal-dense-5-5-0.5", "Normal (5-dim, dense)"), ("multinormal-sparse-5-5-2-2.0", "Normal (5-dim, sparse)"),
   ("asinh-student-identity-1-1-1", "Student (1-dim)"), ("asinh-student-identity-2-2-1", "Student (2-dim)"),
   ("asinh-student-identity-3-3-2", "Student (3-dim)"), ("asinh-student-identity-5-5-2", "Student (5-dim)")]

/-- `SEEDS` (/repo/workflows/projects/Mixtures/gmm_benchmark.smk:73). -/
def seeds : List ℤ := [0, 1, 2]

/-- `N_SAMPLES` (/repo/workflows/projects/Mixtures/gmm_benchmark.smk:75). -/
def nSamples : ℕ := 5000

/-- `'results/{estimator_id}/{task_id}/{n_samples}-{seed}.joblib'` (/repo/workflows/projects/Mixtures/gmm_benchmark.smk:101,134). -/
def joblibPat : List Tok :=
  [.lit ['r', 'e', 's', 'u', 'l', 't', 's', '/'], .wild, .lit ['/'], .wild, .lit ['/'], .wild, .lit ['-'], .wild,
   .lit ['.', 'j', 'o', 'b', 'l', 'i', 'b']]

/-- `ESTIMATORS_DICT` and `TASKS` (/repo/workflows/projects/Mixtures/gmm_benchmark.smk:21-80): an estimator is its
`get_posterior_mi`; the numbers in it are floats, which are NaN or extended reals. -/
structure Config (C P : Type) where
  estimators : Dict (List (List C) → List (List C) → Except Err (List (Fl EReal)))
  tasks : List (Task ℝ C P)
  nSamples : ℕ
  seeds : List ℤ
  csv : C → C

/-- `result` (/repo/workflows/projects/Mixtures/gmm_benchmark.smk:117-124), without the samples of the chain and the mean, which are not
used. -/
structure RunInfo where
  posterior : List (Fl EReal)
  taskId : String
  estimatorId : String
  seed : ℤ

variable {C P : Type}

/-- Rule `apply_gmm_estimator` (/repo/workflows/projects/Mixtures/gmm_benchmark.smk:100-126) together with `sample_task` (lines 89-96). -/
noncomputable def applyGmm (cfg : Config C P) (tasks : Dict (Task ℝ C P)) (path : List Char) : Except Fail RunInfo :=
  match matchPat joblibPat path with
  | some [e, tid, n, s] => do
    let file ← sampleTask tasks (fill samplePat [tid, n, s])
    let est ← orRaise .keyError (cfg.estimators.get (String.ofList e))
    let seed ← orRaise .valueError (pyInt s)
    let (x, y) ← lift ((readSample cfg.csv file).map rowsOnly)
    let posterior ← lift (est x y)
    .ok ⟨posterior, String.ofList tid, String.ofList e, seed⟩
  | _ => .error .noRule

/-- `np.isfinite` (/repo/workflows/projects/Mixtures/gmm_benchmark.smk:147): the number, if it is one. -/
noncomputable def finite : Fl EReal → Option ℝ
  | .num (some (some a)) => some a
  | _ => none

/-- What is kept of a posterior (/repo/workflows/projects/Mixtures/gmm_benchmark.smk:168-172). -/
structure Summary where
  filteredOut : ℕ
  used : ℕ
  qLow : ℝ
  mean : ℝ
  qHigh : ℝ

/-- The numbers made from a posterior (/repo/workflows/projects/Mixtures/gmm_benchmark.smk:144-157). -/
noncomputable def summary (posterior : List (Fl EReal)) : Summary :=
  match posterior.filterMap finite with
  | [] => ⟨posterior.length - 0, 0, -1, -1, -1⟩
  | a :: l =>
    ⟨posterior.length - (a :: l).length, (a :: l).length, Scaling.percentile (n := l.length) (a :: l).get 0.1,
      (a :: l).sum / (a :: l).length, Scaling.percentile (n := l.length) (a :: l).get 0.9⟩

/-- A row of results.csv (/repo/workflows/projects/Mixtures/gmm_benchmark.smk:161-173). -/
structure Row (P : Type) where
  miTrue : Fl ℝ
  taskId : String
  estimatorId : String
  seed : ℤ
  taskName : String
  taskParams : List P
  summary : Summary

/-- A row from the contents of a file (/repo/workflows/projects/Mixtures/gmm_benchmark.smk:143-173). -/
noncomputable def rowOf (tasks : Dict (Task ℝ C P)) (info : RunInfo) : Except Fail (Row P) := do
  let t ← orRaise .keyError (tasks.get info.taskId)
  let mi ← lift t.mi
  let id ← lift t.id
  let name ← lift t.name
  let params ← lift t.getParams
  .ok ⟨mi, id, info.estimatorId, info.seed, name, params, summary info.posterior⟩

/-- `expand` (/repo/workflows/projects/Mixtures/gmm_benchmark.smk:133-139). -/
def paths (es ts : List String) (n : ℕ) (seeds : List ℤ) : List (List Char) :=
  es.flatMap fun e => ts.flatMap fun t => seeds.map fun s => fill joblibPat [e.toList, t.toList, intStr (n : ℤ), intStr s]

/-- Rule `results` (/repo/workflows/projects/Mixtures/gmm_benchmark.smk:130-175). -/
noncomputable def results (cfg : Config C P) : Except Fail (List (Row P)) := do
  let tasks ← lift (tasksDict cfg.tasks)
  (paths (cfg.estimators.map Prod.fst) (tasks.map Prod.fst) cfg.nSamples cfg.seeds).mapM fun path => do
    let info ← applyGmm cfg tasks path
    rowOf tasks info

/-- `create_result_entry` (/repo/workflows/projects/Mixtures/gmm_benchmark.smk:185-186); `fix2` prints a float with two decimals. -/
def entry (fix2 : Fl ℝ → String) (s : Summary) : String :=
  fix2 (.num s.mean) ++ " (" ++ fix2 (.num s.qLow) ++ "–" ++ fix2 (.num s.qHigh) ++ ")"

/-- `create_row` (/repo/workflows/projects/Mixtures/gmm_benchmark.smk:188-195); the number −10 is written as text. -/
def newRow : Dict String :=
  [("Task name", ""), ("True MI", "-10"), ("Run 1", "mean (qlow – qhigh)"), ("Run 2", "mean (qlow – qhigh)"),
   ("Run 3", "mean (qlow – qhigh)")]

/-- `f"Run {seed + 1}"` (/repo/workflows/projects/Mixtures/gmm_benchmark.smk:209). -/
def runColumn (seed : ℤ) : String := "Run " ++ String.ofList (intStr (seed + 1))

/-- One step of the loop (/repo/workflows/projects/Mixtures/gmm_benchmark.smk:200-209).  The row is changed in place. -/
noncomputable def step (names : Dict String) (fix2 : Fl ℝ → String) (table : Dict (Dict String)) (r : Row P) :
    Except Fail (Dict (Dict String)) := do
  let row := (table.get r.taskId).getD newRow
  let name ← orRaise .keyError (names.get r.taskId)
  let row := row.set "Task name" name
  let row := row.set "True MI" (fix2 r.miTrue)
  let row := row.set (runColumn r.seed) (entry fix2 r.summary)
  .ok (table.set r.taskId row)

/-- Rule `create_table` (/repo/workflows/projects/Mixtures/gmm_benchmark.smk:178-215): the rows of the table; a file without rows is
refused. -/
noncomputable def createTable (names : Dict String) (fix2 : Fl ℝ → String) (rows : List (Row P)) : Except Fail (List (Dict String)) :=
  if rows = [] then .error (.raised .valueError) else do
    let table ← rows.foldlM (step names fix2) []
    .ok (table.map Prod.snd)

end BMI.GmmBenchmark
