import Verif.Model.Registry
import Verif.Model.Scaling
import Verif.Model.Workflow
import Verif.Model.FigureTables

/-!
Model of the benchmark workflows of the paper (/repo/workflows/projects/Beyond_Normal/benchmark.smk, benchmark_gaussianise.smk,
benchmark_uniformise.smk, benchmark_qualifiers.smk, benchmark_ksg.smk, benchmark_neural_arch.smk, with _core_rules.smk and the
dictionaries of _common_figure_utils.py) and of the workflow showing the tasks (figure_visualise_tasks.smk).

What a run of an estimator gives is a parameter: a number or NaN for each estimator, task, number of samples and seed.  Names
are lists of characters.  Sizes of figures, colours and the drawing itself are not modelled; neither are the limits on memory
(_core_rules.smk:59-60).  How runs become lines of results.csv is in `Verif.Model.Workflow`.
-/

namespace BMI.Paper

open BMI.Registry BMI.Scaling BMI.FigureTables BMI.Task BMI.SampleIO
open BMI.Tables (Row)

/-- The estimators used, with the arguments given to them or the defaults (/repo/workflows/projects/Beyond_Normal/_common_figure_utils.py:18-37,
/repo/workflows/projects/Beyond_Normal/benchmark_qualifiers.smk:16-37, /repo/workflows/projects/Beyond_Normal/benchmark_ksg.smk:16-31,
/repo/workflows/projects/Beyond_Normal/benchmark_neural_arch.smk:15-24; defaults /repo/src/bmi/estimators/neural/_estimators.py:23,
/repo/src/bmi/estimators/external/r_estimators.py:59,98, /repo/src/bmi/estimators/external/julia_estimators.py:136). -/
inductive Kind where
  | mine (layers : List ℕ)
  | infoNce (layers : List ℕ)
  | nwj (layers : List ℕ)
  | donsker (layers : List ℕ)
  | ksg (k : ℕ)
  | rKsg (variant k : ℕ)
  | rBnsl (proc : ℕ)
  | rLnn (k truncation : ℕ)
  | juliaHist (bins : ℕ)
  | juliaKernel (bandwidth : ℕ)
  | juliaTransfer (bins : ℕ)
  | juliaKsg (variant k : ℕ)
  | cca
  deriving DecidableEq

/-- `isinstance(estimator, NeuralEstimatorBase)` (/repo/src/bmi/estimators/neural/_estimators.py:190,230,270). -/
def Kind.isBase : Kind → Bool
  | .infoNce _ | .nwj _ | .donsker _ => true
  | _ => false

/-- `isinstance(estimator, MINEEstimator)` (/repo/src/bmi/estimators/neural/_mine_estimator.py:269). -/
def Kind.isMine : Kind → Bool
  | .mine _ => true
  | _ => false

/-- How the tasks of a workflow are preprocessed (/repo/workflows/projects/Beyond_Normal/benchmark.smk:23,
/repo/workflows/projects/Beyond_Normal/benchmark_gaussianise.smk:22-28, /repo/workflows/projects/Beyond_Normal/benchmark_uniformise.smk:22-28). -/
inductive Prep where
  | rescaled
  | gaussianised
  | uniformised
  deriving DecidableEq

/-- The configuration of a workflow: `ESTIMATORS`, the names of estimators given to the figures, the identifiers of the tasks in
the order in which they are taken (`none` for all tasks), the preprocessing, `N_SAMPLES` and `SEEDS`
(/repo/workflows/projects/Beyond_Normal/benchmark.smk:17-27 and the same part of the others). -/
structure Setup where
  ests : List (List Char × Kind)
  names : List (List Char × List Char)
  chosen : Option (List (List Char))
  prep : Prep
  ns : List ℕ
  seeds : List ℤ

/-- `ESTIMATORS` (/repo/workflows/projects/Beyond_Normal/_common_figure_utils.py:18-37). -/
def commonEsts : List (List Char × Kind) :=
  [(['M', 'I', 'N', 'E'], Kind.mine [16, 8]),
    (['I', 'n', 'f', 'o', 'N', 'C', 'E'], .infoNce [16, 8]),
    (['N', 'W', 'J'], .nwj [16, 8]),
    (['D', 'o', 'n', 's', 'k', 'e', 'r', '-', 'V', 'a', 'r', 'a', 'd', 'h', 'a', 'n'], .donsker [16, 8]),
    (['R', '-', 'K', 'S', 'G', '-', 'I', '-', '1', '0'], .rKsg 1 5),
    (['R', '-', 'L', 'N', 'N'], .rLnn 5 30),
    (['J', 'u', 'l', 'i', 'a', '-', 'H', 'i', 's', 't', '-', '1', '0'], .juliaHist 10),
    (['J', 'u', 'l', 'i', 'a', '-', 'T', 'r', 'a', 'n', 's', 'f', 'e', 'r', '-', '3', '0'], .juliaTransfer 30),
    (['C', 'C', 'A'], .cca)]

/-- `ESTIMATOR_NAMES` (/repo/workflows/projects/Beyond_Normal/_common_figure_utils.py:53-66). -/
def commonNames : List (List Char × List Char) :=
  [(['M', 'I', 'N', 'E'], ['M', 'I', 'N', 'E']),
    (['I', 'n', 'f', 'o', 'N', 'C', 'E'], ['I', 'n', 'f', 'o', 'N', 'C', 'E']),
    (['D', 'o', 'n', 's', 'k', 'e', 'r', '-', 'V', 'a', 'r', 'a', 'd', 'h', 'a', 'n'], ['D', '-', 'V']),
    (['N', 'W', 'J'], ['N', 'W', 'J']),
    (['R', '-', 'K', 'S', 'G', '-', 'I', '-', '1', '0'], ['K', 'S', 'G', ' ', 'I', ' ', '(', 'R', ')']),
    (['R', '-', 'L', 'N', 'N'], ['L', 'N', 'N', ' ', '(', 'R', ')']),
    (['R', '-', 'B', 'N', 'S', 'L'], ['B', 'N', 'S', 'L', ' ', '(', 'R', ')']),
    (['J', 'u', 'l', 'i', 'a', '-', 'H', 'i', 's', 't', '-', '1', '0'], ['H', 'i', 's', 't', '.', ' ', '(', 'J', 'u', 'l', 'i', 'a', ')']),
    (['J', 'u', 'l', 'i', 'a', '-', 'T', 'r', 'a', 'n', 's', 'f', 'e', 'r', '-', '3', '0'], ['T', 'r', 'a', 'n', 's', 'f', 'e', 'r', ' ', '(', 'J', 'u', 'l', 'i', 'a', ')']),
    (['J', 'u', 'l', 'i', 'a', '-', 'K', 'e', 'r', 'n', 'e', 'l'], ['K', 'e', 'r', 'n', 'e', 'l', ' ', '(', 'J', 'u', 'l', 'i', 'a', ')']),
    (['C', 'C', 'A'], ['C', 'C', 'A'])]

/-- `list(range(n))` (/repo/workflows/projects/Beyond_Normal/benchmark.smk:27). -/
def upTo (n : ℕ) : List ℤ := (List.range n).map fun (i : ℕ) => (i : ℤ)

/-- /repo/workflows/projects/Beyond_Normal/benchmark.smk:17-27,47,59,71. -/
def benchmark : Setup where
  ests := commonEsts
  names := []
  chosen := none
  prep := .rescaled
  ns := [100, 500, 1000, 3000, 5000, 10000]
  seeds := upTo 10

/-- /repo/workflows/projects/Beyond_Normal/benchmark_gaussianise.smk:17-32,52,64,76. -/
def gaussianise : Setup where
  ests := commonEsts
  names := []
  chosen := none
  prep := .gaussianised
  ns := [10000]
  seeds := upTo 10

/-- /repo/workflows/projects/Beyond_Normal/benchmark_uniformise.smk:17-32,52,64,76. -/
def uniformise : Setup where
  ests := commonEsts
  names := []
  chosen := none
  prep := .uniformised
  ns := [10000]
  seeds := upTo 10

/-- The identifiers in /repo/workflows/projects/Beyond_Normal/benchmark_qualifiers.smk:41-47. -/
def qualifierIds : List (List Char) :=
  [['1', 'v', '1', '-', 'b', 'i', 'm', 'o', 'd', 'a', 'l', '-', '0', '.', '7', '5'],
    ['a', 's', 'i', 'n', 'h', '-', 's', 't', 'u', 'd', 'e', 'n', 't', '-', 'i', 'd', 'e', 'n', 't', 'i', 't', 'y', '-', '1', '-', '1', '-', '1'],
    ['s', 'w', 'i', 's', 's', 'r', 'o', 'l', 'l', '_', 'x', '-', 'n', 'o', 'r', 'm', 'a', 'l', '_', 'c', 'd', 'f', '-', '1', 'v', '1', '-', 'n', 'o', 'r', 'm', 'a', 'l', '-', '0', '.', '7', '5'],
    ['m', 'u', 'l', 't', 'i', 'n', 'o', 'r', 'm', 'a', 'l', '-', 's', 'p', 'a', 'r', 's', 'e', '-', '3', '-', '3', '-', '2', '-', '2', '.', '0'],
    ['m', 'u', 'l', 't', 'i', 'n', 'o', 'r', 'm', 'a', 'l', '-', 's', 'p', 'a', 'r', 's', 'e', '-', '5', '-', '5', '-', '2', '-', '2', '.', '0']]

/-- /repo/workflows/projects/Beyond_Normal/benchmark_qualifiers.smk:14-51,71.  A set of strings is iterated in an order which differs from
process to process: `order` is the list in that order. -/
def qualifiers (order : List (List Char)) : Setup where
  ests :=
    [(['M', 'I', 'N', 'E'], Kind.mine [16, 8]),
    (['I', 'n', 'f', 'o', 'N', 'C', 'E'], .infoNce [16, 8]),
    (['N', 'W', 'J'], .nwj [16, 8]),
    (['D', 'o', 'n', 's', 'k', 'e', 'r', '-', 'V', 'a', 'r', 'a', 'd', 'h', 'a', 'n'], .donsker [16, 8]),
    (['R', '-', 'K', 'S', 'G', '-', 'I', '-', '1', '0'], .rKsg 1 10),
    (['R', '-', 'B', 'N', 'S', 'L'], .rBnsl 10),
    (['R', '-', 'L', 'N', 'N'], .rLnn 5 30),
    (['J', 'u', 'l', 'i', 'a', '-', 'H', 'i', 's', 't', '-', '1', '0'], .juliaHist 10),
    (['J', 'u', 'l', 'i', 'a', '-', 'K', 'e', 'r', 'n', 'e', 'l'], .juliaKernel 1),
    (['J', 'u', 'l', 'i', 'a', '-', 'T', 'r', 'a', 'n', 's', 'f', 'e', 'r', '-', '3', '0'], .juliaTransfer 30)]
  names := []
  chosen := some order
  prep := .rescaled
  ns := [10000]
  seeds := upTo 5

/-- The identifiers in /repo/workflows/projects/Beyond_Normal/benchmark_ksg.smk:52-65 and
/repo/workflows/projects/Beyond_Normal/benchmark_neural_arch.smk:32-45. -/
def ksgIds : List (List Char) :=
  [['1', 'v', '1', '-', 'b', 'i', 'm', 'o', 'd', 'a', 'l', '-', '0', '.', '7', '5'],
    ['a', 's', 'i', 'n', 'h', '-', 's', 't', 'u', 'd', 'e', 'n', 't', '-', 'i', 'd', 'e', 'n', 't', 'i', 't', 'y', '-', '1', '-', '1', '-', '1'],
    ['s', 'w', 'i', 's', 's', 'r', 'o', 'l', 'l', '_', 'x', '-', 'n', 'o', 'r', 'm', 'a', 'l', '_', 'c', 'd', 'f', '-', '1', 'v', '1', '-', 'n', 'o', 'r', 'm', 'a', 'l', '-', '0', '.', '7', '5'],
    ['m', 'u', 'l', 't', 'i', 'n', 'o', 'r', 'm', 'a', 'l', '-', 'd', 'e', 'n', 's', 'e', '-', '2', '5', '-', '2', '5', '-', '0', '.', '5'],
    ['m', 'u', 'l', 't', 'i', 'n', 'o', 'r', 'm', 'a', 'l', '-', 's', 'p', 'a', 'r', 's', 'e', '-', '5', '-', '5', '-', '2', '-', '2', '.', '0'],
    ['m', 'u', 'l', 't', 'i', 'n', 'o', 'r', 'm', 'a', 'l', '-', 's', 'p', 'a', 'r', 's', 'e', '-', '2', '5', '-', '2', '5', '-', '2', '-', '2', '.', '0'],
    ['n', 'o', 'r', 'm', 'a', 'l', '_', 'c', 'd', 'f', '-', 'm', 'u', 'l', 't', 'i', 'n', 'o', 'r', 'm', 'a', 'l', '-', 's', 'p', 'a', 'r', 's', 'e', '-', '5', '-', '5', '-', '2', '-', '2', '.', '0'],
    ['n', 'o', 'r', 'm', 'a', 'l', '_', 'c', 'd', 'f', '-', 'm', 'u', 'l', 't', 'i', 'n', 'o', 'r', 'm', 'a', 'l', '-', 's', 'p', 'a', 'r', 's', 'e', '-', '2', '5', '-', '2', '5', '-', '2', '-', '2', '.', '0'],
    ['s', 't', 'u', 'd', 'e', 'n', 't', '-', 'i', 'd', 'e', 'n', 't', 'i', 't', 'y', '-', '3', '-', '3', '-', '2'],
    ['s', 't', 'u', 'd', 'e', 'n', 't', '-', 'i', 'd', 'e', 'n', 't', 'i', 't', 'y', '-', '5', '-', '5', '-', '2'],
    ['a', 's', 'i', 'n', 'h', '-', 's', 't', 'u', 'd', 'e', 'n', 't', '-', 'i', 'd', 'e', 'n', 't', 'i', 't', 'y', '-', '3', '-', '3', '-', '2'],
    ['a', 's', 'i', 'n', 'h', '-', 's', 't', 'u', 'd', 'e', 'n', 't', '-', 'i', 'd', 'e', 'n', 't', 'i', 't', 'y', '-', '5', '-', '5', '-', '2']]

/-- /repo/workflows/projects/Beyond_Normal/benchmark_ksg.smk:14-69,89, with the order of the set as for `qualifiers`. -/
def ksgSetup (order : List (List Char)) : Setup where
  ests :=
    [(['K', 'S', 'G', '-', '5'], Kind.ksg 5),
    (['K', 'S', 'G', '-', '1', '0'], .ksg 10),
    (['R', '-', 'K', 'S', 'G', '-', 'I', '-', '5'], .rKsg 1 5),
    (['R', '-', 'K', 'S', 'G', '-', 'I', '-', '1', '0'], .rKsg 1 10),
    (['R', '-', 'K', 'S', 'G', '-', 'I', 'I', '-', '5'], .rKsg 2 5),
    (['R', '-', 'K', 'S', 'G', '-', 'I', 'I', '-', '1', '0'], .rKsg 2 10),
    (['J', 'u', 'l', 'i', 'a', '-', 'K', 'S', 'G', '-', 'I', '-', '5'], .juliaKsg 1 5),
    (['J', 'u', 'l', 'i', 'a', '-', 'K', 'S', 'G', '-', 'I', 'I', '-', '5'], .juliaKsg 2 5),
    (['R', '-', 'L', 'N', 'N', '-', '5', '-', '3', '0'], .rLnn 5 30),
    (['R', '-', 'L', 'N', 'N', '-', '1', '0', '-', '3', '0'], .rLnn 10 30),
    (['R', '-', 'L', 'N', 'N', '-', '5', '-', '1', '0'], .rLnn 5 10)]
  names :=
    [(['K', 'S', 'G', '-', '5'], ['K', 'S', 'G', ' ', 'I', ' ', '(', 'n', '=', '5', ',', ' ', 'P', 'y', 't', 'h', 'o', 'n', ')']),
    (['K', 'S', 'G', '-', '1', '0'], ['K', 'S', 'G', ' ', 'I', ' ', '(', 'n', '=', '1', '0', ',', ' ', 'P', 'y', 't', 'h', 'o', 'n', ')']),
    (['R', '-', 'K', 'S', 'G', '-', 'I', '-', '5'], ['K', 'S', 'G', ' ', 'I', ' ', '(', 'n', '=', '5', ',', ' ', 'R', ')']),
    (['R', '-', 'K', 'S', 'G', '-', 'I', '-', '1', '0'], ['K', 'S', 'G', ' ', 'I', ' ', '(', 'n', '=', '1', '0', ',', ' ', 'R', ')']),
    (['R', '-', 'K', 'S', 'G', '-', 'I', 'I', '-', '5'], ['K', 'S', 'G', ' ', 'I', 'I', ' ', '(', 'n', '=', '5', ',', ' ', 'R', ')']),
    (['R', '-', 'K', 'S', 'G', '-', 'I', 'I', '-', '1', '0'], ['K', 'S', 'G', ' ', 'I', 'I', ' ', '(', 'n', '=', '1', '0', ',', ' ', 'R', ')']),
    (['J', 'u', 'l', 'i', 'a', '-', 'K', 'S', 'G', '-', 'I', '-', '5'], ['K', 'S', 'G', ' ', 'I', ' ', '(', 'n', '=', '5', ',', ' ', 'J', 'u', 'l', 'i', 'a', ')']),
    (['J', 'u', 'l', 'i', 'a', '-', 'K', 'S', 'G', '-', 'I', 'I', '-', '5'], ['K', 'S', 'G', ' ', 'I', 'I', ' ', '(', 'n', '=', '5', ',', ' ', 'J', 'u', 'l', 'i', 'a', ')']),
    (['R', '-', 'L', 'N', 'N', '-', '5', '-', '3', '0'], ['L', 'N', 'N', ' ', '(', 'n', '=', '5', ',', ' ', 't', '=', '3', '0', ',', ' ', 'R', ')']),
    (['R', '-', 'L', 'N', 'N', '-', '1', '0', '-', '3', '0'], ['L', 'N', 'N', ' ', '(', 'n', '=', '1', '0', ',', ' ', 't', '=', '3', '0', ',', ' ', 'R', ')']),
    (['R', '-', 'L', 'N', 'N', '-', '5', '-', '1', '0'], ['L', 'N', 'N', ' ', '(', 'n', '=', '5', ',', ' ', 't', '=', '1', '0', ',', ' ', 'R', ')'])]
  chosen := some order
  prep := .rescaled
  ns := [10000]
  seeds := upTo 5

/-- `estimator_id.replace('-', ' ')` (/repo/workflows/projects/Beyond_Normal/benchmark_neural_arch.smk:27). -/
def dashes (s : List Char) : List Char := s.map fun c => if c = '-' then ' ' else c

/-- `ESTIMATORS` (/repo/workflows/projects/Beyond_Normal/benchmark_neural_arch.smk:15-24). -/
def archEsts : List (List Char × Kind) :=
  [(['M', 'I', 'N', 'E', '-', 'D'], Kind.mine [8, 8, 8]),
    (['M', 'I', 'N', 'E', '-', 'L'], .mine [24, 12]),
    (['M', 'I', 'N', 'E', '-', 'M'], .mine [16, 8]),
    (['M', 'I', 'N', 'E', '-', 'S'], .mine [10, 5]),
    (['I', 'n', 'f', 'o', 'N', 'C', 'E', '-', 'D'], .infoNce [8, 8, 8]),
    (['I', 'n', 'f', 'o', 'N', 'C', 'E', '-', 'L'], .infoNce [24, 12]),
    (['I', 'n', 'f', 'o', 'N', 'C', 'E', '-', 'M'], .infoNce [16, 8]),
    (['I', 'n', 'f', 'o', 'N', 'C', 'E', '-', 'S'], .infoNce [10, 5])]

/-- /repo/workflows/projects/Beyond_Normal/benchmark_neural_arch.smk:13-49,69,81, with the order of the set as for `qualifiers`. -/
def neuralArch (order : List (List Char)) : Setup where
  ests := archEsts
  names := archEsts.map fun e => (e.1, dashes e.1)
  chosen := some order
  prep := .rescaled
  ns := [10000]
  seeds := upTo 5

/-! ## Tasks -/

variable {Key State V : Type}

/-- A list of rows as an array; without rows there are no columns (`task.sample`, /repo/src/bmi/benchmark/task.py:75-76, as the
transforms of /repo/src/bmi/benchmark/tasks/scaling.py:10-16,44-50 see it). -/
def toNd (a : Samplers.Arr) : NdArr ℝ :=
  .mat a.length (a.headD []).length fun i j => (a[i]).getD j 0

/-- A task of `BENCHMARK_TASKS` as its user sees it (/repo/src/bmi/benchmark/task.py:21-76). -/
noncomputable def view (params : List Char → List (String × V)) (t : TaskObj Key State) : Task ℝ ℝ (String × V) where
  sampler :=
    { dimX := t.sampler.dimX
      dimY := t.sampler.dimY
      mi := .ok (.num t.sampler.mi)
      sample := fun n z => (t.sampler.sample n z).map fun xy => (toNd xy.1, toNd xy.2) }
  taskId := String.ofList t.id
  taskName := String.ofList t.name
  params := some (params t.id)

/-- `BENCHMARK_TASKS`, or `{task_id: BENCHMARK_TASKS[task_id] for task_id in …}`
(/repo/workflows/projects/Beyond_Normal/benchmark.smk:23, /repo/workflows/projects/Beyond_Normal/benchmark_ksg.smk:50-53,
/repo/workflows/projects/Beyond_Normal/figure_visualise_tasks.smk:39-42). -/
def choose {T : Type} (all : List (List Char × T)) : Option (List (List Char)) → Except Err (List (List Char × T))
  | none => .ok all
  | some ids => ids.mapM fun i =>
    match all.lookup i with
    | some t => .ok (i, t)
    | none => .error .keyError

/-- `TASKS` (/repo/workflows/projects/Beyond_Normal/benchmark.smk:23, /repo/workflows/projects/Beyond_Normal/benchmark_gaussianise.smk:22-28,
/repo/workflows/projects/Beyond_Normal/benchmark_uniformise.smk:22-28, /repo/workflows/projects/Beyond_Normal/benchmark_ksg.smk:50-66):
the number of quantiles and the seed are the defaults (/repo/src/bmi/benchmark/tasks/scaling.py:58-59,91-92). -/
noncomputable def tasksOf (L : Lib) (num : ℕ → V) (params : List Char → List (String × V))
    (all : List (List Char × TaskObj Key State)) (c : Setup) : Except Err (List (String × Task ℝ ℝ (String × V))) := do
  let picked ← choose all c.chosen
  let tasks := picked.map fun kt => (String.ofList kt.1, view params kt.2)
  match c.prep with
  | .rescaled => scaleTasks L.eps tasks
  | .gaussianised => do
    let ts ← (tasks.map Prod.snd).mapM fun t => transformQuantile L num .normal t none 100 0
    Workflow.tasksDict ts
  | .uniformised => do
    let ts ← (tasks.map Prod.snd).mapM fun t => transformQuantile L num .uniform t none 100 0
    Workflow.tasksDict ts

/-- The key, the name and the mutual information of a task
(/repo/workflows/projects/Beyond_Normal/_common_figure_utils.py:209,221,245, /repo/workflows/projects/Beyond_Normal/_core_rules.smk:32).  NaN, which does not occur, is
left out. -/
noncomputable def infoOf (kt : String × Task ℝ ℝ (String × V)) : Except Err TaskInfo := do
  let name ← kt.2.name
  match ← kt.2.mi with
  | .num a => .ok ⟨kt.1, name, a⟩
  | .nan => .error .valueError

/-! ## Results and figures -/

/-- results.csv, as far as the figures use it: for each estimator, task, number of samples and seed what the run gave, with
the mutual information of the task (/repo/workflows/projects/Beyond_Normal/_core_rules.smk:16-35,49-69). -/
def rows (c : Setup) (tasks : List TaskInfo) (run : String → String → ℕ → ℤ → Option ℝ) : List Row :=
  c.ests.flatMap fun e => tasks.flatMap fun t => c.ns.flatMap fun (n : ℕ) => c.seeds.map fun s =>
    ⟨String.ofList e.1, t.id, (n : ℕ), run (String.ofList e.1) t.id n s, t.mi⟩

/-- `neural_ids` (/repo/workflows/projects/Beyond_Normal/_common_figure_utils.py:179-187). -/
def neural (c : Setup) (e : String) : Bool :=
  c.ests.any fun x => decide (String.ofList x.1 = e) && (x.2.isBase || x.2.isMine)

/-- `(ESTIMATOR_NAMES | estimator_names)[e]` (/repo/workflows/projects/Beyond_Normal/_common_figure_utils.py:222,229,305,344). -/
def nameOf (c : Setup) (e : String) : Option String :=
  match c.names.lookup e.toList with
  | some n => some (String.ofList n)
  | none => (commonNames.lookup e.toList).map String.ofList

/-- The keys of `ESTIMATORS` as strings (/repo/workflows/projects/Beyond_Normal/_common_figure_utils.py:211-215). -/
def estIds (c : Setup) : List String := c.ests.map fun e => String.ofList e.1

/-- Rule `figure_mi_estimate` (/repo/workflows/projects/Beyond_Normal/benchmark.smk:38-48, /repo/workflows/projects/Beyond_Normal/benchmark_ksg.smk:80-90). -/
noncomputable def figureEstimates (c : Setup) (tasks : List TaskInfo) (run : String → String → ℕ → ℤ → Option ℝ) :
    Except Err (List (String × List (String × Option ℝ))) :=
  miTable (neural c) (rows c tasks run) (estIds c) tasks (nameOf c)

/-- Rule `figure_n_samples` (/repo/workflows/projects/Beyond_Normal/benchmark.smk:50-60), with the annotations
(/repo/workflows/projects/Beyond_Normal/_common_figure_utils.py:307,326). -/
noncomputable def figureSamples (c : Setup) (tasks : List TaskInfo) (run : String → String → ℕ → ℤ → Option ℝ) :
    Except Err (List (String × List (String × String))) := do
  let table ← samplesTable (neural c) (rows c tasks run) (estIds c) tasks (nameOf c)
  let most := (indexMax ((rows c tasks run).map Row.n)).getD 0
  .ok (table.map fun r => (r.1, r.2.map fun x => (x.1, annotation most.toNat (x.2.getD .nan))))

/-- Rule `figure_neural` (/repo/workflows/projects/Beyond_Normal/benchmark.smk:62-72, /repo/workflows/projects/Beyond_Normal/benchmark_neural_arch.smk:72-82). -/
noncomputable def figureFailures (c : Setup) (tasks : List TaskInfo) (run : String → String → ℕ → ℤ → Option ℝ) :
    Except Err (List (String × List (String × Option ℕ))) :=
  failsTable (neural c) (rows c tasks run) (estIds c) tasks (nameOf c)

/-! ## Showing the tasks -/

/-- `TASK_IDS` (/repo/workflows/projects/Beyond_Normal/figure_visualise_tasks.smk:16-38). -/
def shownIds : List (List Char) :=
  [['1', 'v', '1', '-', 'n', 'o', 'r', 'm', 'a', 'l', '-', '0', '.', '7', '5'],
    ['n', 'o', 'r', 'm', 'a', 'l', '_', 'c', 'd', 'f', '-', '1', 'v', '1', '-', 'n', 'o', 'r', 'm', 'a', 'l', '-', '0', '.', '7', '5'],
    ['1', 'v', '1', '-', 'a', 'd', 'd', 'i', 't', 'i', 'v', 'e', '-', '0', '.', '1'],
    ['1', 'v', '1', '-', 'a', 'd', 'd', 'i', 't', 'i', 'v', 'e', '-', '0', '.', '7', '5'],
    ['1', 'v', '1', '-', 'b', 'i', 'm', 'o', 'd', 'a', 'l', '-', '0', '.', '7', '5'],
    ['w', 'i', 'g', 'g', 'l', 'y', '-', '1', 'v', '1', '-', 'n', 'o', 'r', 'm', 'a', 'l', '-', '0', '.', '7', '5'],
    ['h', 'a', 'l', 'f', '_', 'c', 'u', 'b', 'e', '-', '1', 'v', '1', '-', 'n', 'o', 'r', 'm', 'a', 'l', '-', '0', '.', '7', '5'],
    ['s', 't', 'u', 'd', 'e', 'n', 't', '-', 'i', 'd', 'e', 'n', 't', 'i', 't', 'y', '-', '1', '-', '1', '-', '1'],
    ['a', 's', 'i', 'n', 'h', '-', 's', 't', 'u', 'd', 'e', 'n', 't', '-', 'i', 'd', 'e', 'n', 't', 'i', 't', 'y', '-', '1', '-', '1', '-', '1'],
    ['s', 'w', 'i', 's', 's', 'r', 'o', 'l', 'l', '_', 'x', '-', 'n', 'o', 'r', 'm', 'a', 'l', '_', 'c', 'd', 'f', '-', '1', 'v', '1', '-', 'n', 'o', 'r', 'm', 'a', 'l', '-', '0', '.', '7', '5'],
    ['m', 'u', 'l', 't', 'i', 'n', 'o', 'r', 'm', 'a', 'l', '-', 'd', 'e', 'n', 's', 'e', '-', '2', '-', '2', '-', '0', '.', '5'],
    ['m', 'u', 'l', 't', 'i', 'n', 'o', 'r', 'm', 'a', 'l', '-', 's', 'p', 'a', 'r', 's', 'e', '-', '2', '-', '2', '-', '2', '-', '2', '.', '0'],
    ['s', 't', 'u', 'd', 'e', 'n', 't', '-', 'i', 'd', 'e', 'n', 't', 'i', 't', 'y', '-', '2', '-', '2', '-', '1'],
    ['s', 't', 'u', 'd', 'e', 'n', 't', '-', 'i', 'd', 'e', 'n', 't', 'i', 't', 'y', '-', '2', '-', '2', '-', '2'],
    ['n', 'o', 'r', 'm', 'a', 'l', '_', 'c', 'd', 'f', '-', 'm', 'u', 'l', 't', 'i', 'n', 'o', 'r', 'm', 'a', 'l', '-', 's', 'p', 'a', 'r', 's', 'e', '-', '3', '-', '3', '-', '2', '-', '2', '.', '0'],
    ['s', 'p', 'i', 'r', 'a', 'l', '-', 'm', 'u', 'l', 't', 'i', 'n', 'o', 'r', 'm', 'a', 'l', '-', 's', 'p', 'a', 'r', 's', 'e', '-', '3', '-', '3', '-', '2', '-', '2', '.', '0'],
    ['a', 's', 'i', 'n', 'h', '-', 's', 't', 'u', 'd', 'e', 'n', 't', '-', 'i', 'd', 'e', 'n', 't', 'i', 't', 'y', '-', '3', '-', '3', '-', '2']]

/-- `[f"${letter}_{i}$" for i in range(1, dim + 1)]` (/repo/workflows/projects/Beyond_Normal/figure_visualise_tasks.smk:54-55). -/
def labels (letter : Char) (dim : ℕ) : List (List Char) :=
  (List.range dim).map fun i => ['$', letter, '_'] ++ TaskIds.nat (i + 1) ++ ['$']

/-- `pd.DataFrame(a, columns=cols)` (/repo/workflows/projects/Beyond_Normal/figure_visualise_tasks.smk:54-55): `ValueError` unless each row has as
many entries as there are columns. -/
def frame (a : Samplers.Arr) (cols : List (List Char)) : Except Err (List (List Char) × Samplers.Arr) :=
  if ∀ r ∈ a, r.length = cols.length then .ok (cols, a) else .error .valueError

/-- `dfx.join(dfy)` (/repo/workflows/projects/Beyond_Normal/figure_visualise_tasks.smk:56): `ValueError` if columns overlap; rows with the same index
are put side by side, and rows missing on the right are filled up (with NaN, which is left out here: `ValueError`). -/
def joinFrames (f g : List (List Char) × Samplers.Arr) : Except Err (List (List Char) × Samplers.Arr) :=
  if ∃ l ∈ f.1, l ∈ g.1 then .error .valueError
  else if f.2.length ≤ g.2.length then .ok (f.1 ++ g.1, List.zipWith (· ++ ·) f.2 g.2)
  else .error .valueError

/-- The data behind a grid of plots and its title (`plot_sampler_pairwise` with its defaults,
/repo/workflows/projects/Beyond_Normal/figure_visualise_tasks.smk:44-56,68,82). -/
noncomputable def pairFrame (t : TaskObj Key State) : Except Err (List Char × List (List Char) × Samplers.Arr) := do
  let (xs, ys) ← t.sampler.sample 2000 0
  let dx ← t.sampler.dimX
  let dy ← t.sampler.dimY
  let dfx ← frame xs (labels 'X' dx)
  let dfy ← frame ys (labels 'Y' dy)
  let df ← joinFrames dfx dfy
  .ok (t.name, df)

/-- Rules `all` and `visualise_task` (/repo/workflows/projects/Beyond_Normal/figure_visualise_tasks.smk:73-83): for each requested file its name and
what it shows. -/
noncomputable def visualise (all : List (List Char × TaskObj Key State)) :
    Except Err (List (List Char × List Char × List (List Char) × Samplers.Arr)) := do
  let tasks ← choose all (some shownIds)
  shownIds.mapM fun i =>
    match tasks.lookup i with
    | some t => (pairFrame t).map fun f => (i ++ ['.', 'p', 'd', 'f'], f)
    | none => .error .keyError

end BMI.Paper
