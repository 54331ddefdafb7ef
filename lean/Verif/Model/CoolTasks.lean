import Verif.Model.Fitting
import Verif.Model.Scaling
import Verif.Model.MiFigure

/-!
Model of the workflow which shows the example distributions and how estimators do on them
(/repo/workflows/projects/Mixtures/cool_tasks.smk with _benchmark_rules.smk).

Its rules are those of the benchmark workflow (Workflow.lean), but without the column `task_name`; the dictionary of tasks has the
identifiers as its keys.  Every job loads the file, so that nothing is made if loading raises.  The CSV file with the results is the list of
its rows, floats survive being written and read; `groupby` is that of MiFigure.lean.  Of the figures the points, the dotted lines, labels,
markers, colours, ticks and limits are kept; sizes and transparency are left out.
-/

namespace BMI.CoolTasks

open BMI.Samplers BMI.Bmm BMI.Fitting
open BMI.SampleIO (NdArr)
open BMI.Training (Fl)
open BMI.Task (Task)
open BMI.Run (Dict Outcome)
open BMI.Workflow (Line Est)
open BMI.ReadResults (lookup)
open BMI.MiFigure (number)

/-! ## Settings -/

/-- `N_SAMPLES` (/repo/workflows/projects/Mixtures/cool_tasks.smk:16). -/
def nSamples : List ℕ := [1000, 5000]

/-- `SEEDS` (/repo/workflows/projects/Mixtures/cool_tasks.smk:17). -/
def seeds : List ℤ := (List.range 10).map fun i : ℕ => (i : ℤ)

/-- `ESTIMATORS` (/repo/workflows/projects/Mixtures/cool_tasks.smk:19-27): the keys. -/
def estimators : List String := ["MINE", "InfoNCE", "KSG-10", "Hist-10", "CCA"]

/-- `ESTIMATOR_NAMES` (/repo/workflows/projects/Mixtures/cool_tasks.smk:28-34). -/
def estimatorNames : Dict String :=
  [("MINE", "MINE"), ("InfoNCE", "InfoNCE"), ("KSG-10", "KSG"), ("Hist-10", "Histogram"), ("CCA", "CCA")]

/-- `ESTIMATOR_COLORS` (/repo/workflows/projects/Mixtures/cool_tasks.smk:35-41). -/
def estimatorColors : Dict String :=
  [("MINE", "#377eb8"), ("InfoNCE", "#ff7f00"), ("KSG-10", "#4daf4a"), ("Hist-10", "#f781bf"), ("CCA", "#a65628")]

/-- `ESTIMATOR_MARKERS` (/repo/workflows/projects/Mixtures/cool_tasks.smk:43-49). -/
def estimatorMarkers : Dict String :=
  [("MINE", "o"), ("InfoNCE", "v"), ("KSG-10", "^"), ("Hist-10", "D"), ("CCA", "X")]

/-- `assert set(d.keys()) == set(ESTIMATORS.keys())` (/repo/workflows/projects/Mixtures/cool_tasks.smk:51-53). -/
def assertKeys (d : Dict String) : Except Err Unit :=
  if (∀ k ∈ d.map Prod.fst, k ∈ estimators) ∧ ∀ k ∈ estimators, k ∈ d.map Prod.fst then .ok () else .error .assertionError

/-- `_SAMPLE_ESTIMATE` (/repo/workflows/projects/Mixtures/cool_tasks.smk:55). -/
def sampleEstimate : ℕ := 200000

/-! ## Loading the file -/

variable {Key V W : Type}

/-- An array of rows of the same length as `np.asarray` sees it (`task.sample`, called by `save_sample`,
/repo/workflows/projects/Mixtures/_benchmark_rules.smk:62). -/
noncomputable def ndarray (a : Arr) : NdArr ℝ := .mat a.length (a.headD []).length fun i j => (a.getD i []).getD j 0

/-- `bmi.benchmark.Task(sampler=s, task_id=i, task_name=i)` (/repo/workflows/projects/Mixtures/cool_tasks.smk:63-82). -/
noncomputable def taskOf (i : String) (s : Sampler Key) : Task ℝ ℝ (String × W) where
  sampler :=
    { dimX := s.dimX
      dimY := s.dimY
      mi := .ok (.num s.mi)
      sample := fun n seed => (s.sample n (.seed seed)).map fun xy => (ndarray xy.1, ndarray xy.2) }
  taskId := i
  taskName := i
  params := none

/-- What the file defines when it is loaded (/repo/workflows/projects/Mixtures/cool_tasks.smk:57-60,
/repo/workflows/projects/Mixtures/_benchmark_rules.smk:31). -/
structure Loaded (Key W : Type) where
  x : Sampler Key
  ai : Sampler Key
  waves : Sampler Key
  galaxy : Sampler Key
  tasks : List (String × Task ℝ ℝ (String × W))

/-- `UNSCALED_TASKS` (/repo/workflows/projects/Mixtures/cool_tasks.smk:62-83). -/
noncomputable def unscaledTasks (x ai waves galaxy : Sampler Key) : List (String × Task ℝ ℝ (String × W)) :=
  [("X", taskOf "X" x), ("AI", taskOf "AI" ai), ("Fence", taskOf "Fence" waves), ("Balls", taskOf "Balls" galaxy)]

/-- Loading the file, with the number of points for the estimates of mutual information as an argument
(/repo/workflows/projects/Mixtures/cool_tasks.smk:51-83,196, /repo/workflows/projects/Mixtures/_benchmark_rules.smk:31). -/
noncomputable def loadWith (size : ℕ) (R : JaxRandom Key) (T : Tfp Key) (eps : ℝ) : Except Err (Loaded Key W) := do
  assertKeys estimatorNames
  assertKeys estimatorColors
  assertKeys estimatorMarkers
  let x ← createX R T (size := size)
  let ai ← createAi R T (size := size)
  let waves ← createWaves R T (size := size)
  let galaxy ← createGalaxy R T (size := size)
  let tasks ← Scaling.scaleTasks eps (unscaledTasks x.sampler ai.sampler waves.sampler galaxy.sampler)
  .ok ⟨x.sampler, ai.sampler, waves.sampler, galaxy.sampler, tasks⟩

/-- Loading the file (/repo/workflows/projects/Mixtures/cool_tasks.smk:51-83,196). -/
noncomputable def load (R : JaxRandom Key) (T : Tfp Key) (eps : ℝ) : Except Err (Loaded Key W) := loadWith sampleEstimate R T eps

/-! ## Rule `plot_distributions` -/

/-- A panel (/repo/workflows/projects/Mixtures/cool_tasks.smk:101-139): points, each with the number which gives its colour unless it is
black, labels of the axes, ticks and limits, which are the same for both axes. -/
structure Panel where
  points : List ((ℝ × ℝ) × Option ℝ)
  labels : String × String
  ticks : List ℤ
  limits : ℝ × ℝ

/-- A panel of points `(xs[:, 0], ys[:, 0])` (/repo/workflows/projects/Mixtures/cool_tasks.smk:103-109,113-116,133-138). -/
noncomputable def blackPanel (s : Sampler Key) (n : ℕ) : Except Err Panel := do
  let xy ← s.sample n (.seed 0)
  .ok ⟨List.zipWith (fun x y => ((x.getD 0 0, y.getD 0 0), none)) xy.1 xy.2, ("$X$", "$Y$"), [-1, 0, 1], (-2, 2)⟩

/-- A panel of points `xs` with colours `ys[:, 0]` (/repo/workflows/projects/Mixtures/cool_tasks.smk:120-124,128-138). -/
noncomputable def colourPanel (s : Sampler Key) (n : ℕ) : Except Err Panel := do
  let xy ← s.sample n (.seed 0)
  .ok ⟨List.zipWith (fun x y => ((x.getD 0 0, x.getD 1 0), some (y.getD 0 0))) xy.1 xy.2, ("$X_1$", "$X_2$"), [-1, 0, 1], (-2, 2)⟩

/-- Rule `plot_distributions` (/repo/workflows/projects/Mixtures/cool_tasks.smk:96-141). -/
noncomputable def plotDistributions (L : Loaded Key W) : Except Err (List Panel) := do
  let a ← blackPanel L.x 1000
  let b ← blackPanel L.ai 2000
  let c ← colourPanel L.waves 2000
  let d ← colourPanel L.galaxy 2000
  .ok [a, b, c, d]

/-! ## Rule `plot_results` -/

/-- The points of an estimator (/repo/workflows/projects/Mixtures/cool_tasks.smk:172-180). -/
structure Cloud where
  label : String
  marker : String
  colour : String
  points : List (ℝ × Option ℝ)

/-- A dotted line (/repo/workflows/projects/Mixtures/cool_tasks.smk:185). -/
structure Dotted where
  left : ℝ
  right : ℝ
  height : Option ℝ

/-- The figure (/repo/workflows/projects/Mixtures/cool_tasks.smk:163-193). -/
structure Figure where
  clouds : List Cloud
  truths : List Dotted
  ticks : List (ℕ × String)
  limits : ℝ × ℝ

/-- `tasks` (/repo/workflows/projects/Mixtures/cool_tasks.smk:168). -/
def taskIds : List String := ["X", "AI", "Fence", "Balls"]

/-- `tasks_official` (/repo/workflows/projects/Mixtures/cool_tasks.smk:169). -/
def tasksOfficial : List String := ["X", "AI", "Waves", "Galaxy"]

/-- `tasks.index(e)` (/repo/workflows/projects/Mixtures/cool_tasks.smk:173,184). -/
def taskIndex (e : String) : Except Err ℕ := if e ∈ taskIds then .ok (taskIds.idxOf e) else .error .valueError

/-- The keys of a `groupby` (/repo/workflows/projects/Mixtures/cool_tasks.smk:171,182). -/
def groupKeys (ks : List String) : List String := ks.dedup.mergeSort fun a b => decide (a ≤ b)

variable {P : Type}

/-- The body of the first loop (/repo/workflows/projects/Mixtures/cool_tasks.smk:172-180).  The numbers `noise` are those of the call of
`np.random.normal`. -/
noncomputable def cloudOf (noise : ℕ → ℝ) (data : List (Line ℝ (Fl ℝ) V P)) (e : String) : Except Err Cloud := do
  let dataEst := data.filter fun l => l.result.estimatorId == e
  let places ← dataEst.mapM fun l => taskIndex l.result.taskId
  let xs := places.mapIdx fun i (k : ℕ) => (k : ℝ) + 0.05 * noise i
  let label ← lookup estimatorNames e
  let marker ← lookup estimatorMarkers e
  let colour ← lookup estimatorColors e
  .ok ⟨label, marker, colour, xs.zip (dataEst.map fun l => number l.result.mi)⟩

/-- The body of the second loop (/repo/workflows/projects/Mixtures/cool_tasks.smk:183-185). -/
noncomputable def dottedOf (data : List (Line ℝ (Fl ℝ) V P)) (t : String) : Except Err Dotted := do
  let trueMi := Tables.mean ((data.filter fun l => l.result.taskId == t).map fun l => number l.miTrue)
  let x ← taskIndex t
  .ok ⟨x - 0.2, x + 0.2, trueMi⟩

/-- Rule `plot_results` (/repo/workflows/projects/Mixtures/cool_tasks.smk:160-193); `noise k` are the numbers of the `k`-th call of
`np.random.normal`. -/
noncomputable def plotResults (noise : ℕ → ℕ → ℝ) (lines : List (Line ℝ (Fl ℝ) V P)) : Except Err Figure := do
  let data := lines.filter fun l => l.result.nSamples == 5000
  let clouds ← (groupKeys (data.map fun l => l.result.estimatorId)).zipIdx.mapM fun e => cloudOf (noise e.2) data e.1
  let truths ← (groupKeys (data.map fun l => l.result.taskId)).mapM (dottedOf data)
  .ok ⟨clouds, truths, (List.range taskIds.length).zip tasksOfficial, (-0.1, 1.4)⟩

/-! ## The whole workflow -/

/-- The surroundings: what the estimators do with arrays (/repo/workflows/projects/Mixtures/cool_tasks.smk:19-27), strings as dictionary
values, floats as read back from the file with the sample, dictionaries as read back from YAML, the timer. -/
structure World (V : Type) where
  est : String → List (List ℝ) → List (List ℝ) → Outcome (Fl ℝ) V
  str : String → V
  csv : ℝ → ℝ
  yaml : Dict V → Except Err (Dict V)
  measured : List Char → Fl ℝ

/-- The configuration (/repo/workflows/projects/Mixtures/cool_tasks.smk:16-27, /repo/workflows/projects/Mixtures/_benchmark_rules.smk:31).
No estimator is an external one, so that none is given a path. -/
def config (E : World V) (L : Loaded Key W) : Workflow.Config ℝ (Fl ℝ) V ℝ (String × W) where
  estimators := estimators.map fun i => (i, ⟨false, fun _ => .exc "" none, E.est i⟩)
  tasks := L.tasks.map Prod.snd
  ns := nSamples
  seeds := seeds
  nan := .nan
  str := E.str
  csv := E.csv
  yaml := E.yaml
  measured := E.measured

/-- Rule `results` with the rules it needs (/repo/workflows/projects/Mixtures/_benchmark_rules.smk:33-86), then `plot_results`. -/
noncomputable def workflow (noise : ℕ → ℕ → ℝ) (E : World V) (L : Loaded Key W) :
    Except Workflow.Fail (List (Line ℝ (Fl ℝ) V (String × W)) × Figure) := do
  let lines ← Workflow.results (config E L)
  let fig ← Workflow.lift (plotResults noise lines)
  .ok (lines, fig)

end BMI.CoolTasks
