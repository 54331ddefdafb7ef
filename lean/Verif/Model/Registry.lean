import Verif.Model.TaskIds
import Verif.Model.Search
import Verif.Model.Student

/-!
Model of the objects made by the constructors of tasks (/repo/src/bmi/benchmark/tasks/*.py), of `BENCHMARK_TASKS_LIST`
(/repo/src/bmi/benchmark/task_list.py) and of `BENCHMARK_TASKS` (/repo/src/bmi/benchmark/__init__.py:6).

`TaskIds.Call` has one constructor per Python function making a task; here such a call is evaluated.  A sampler uses either
`jax.random` or the random states of NumPy (only the Student-t samplers), and a transformed sampler uses what its base uses.
What the constructors for mixtures, for the general latent variable model, for rescaling and for quantile transforms return is
a parameter.
-/

namespace BMI.Registry

open BMI.Samplers BMI.Search BMI.Student BMI.TaskIds

/-- The sampler of a task (/repo/src/bmi/benchmark/task.py:31), with keys of `jax.random` or with random states of NumPy. -/
inductive Built (Key State : Type) where
  | jax (s : Sampler Key)
  | np (s : Sampler State)

variable {Key State : Type}

/-- `base_task.sampler` wrapped in a `TransformedSampler`, whichever random generator it uses
(e.g. /repo/src/bmi/benchmark/tasks/asinh.py:15-20). -/
def Built.wrap (f : ∀ {K : Type}, Sampler K → Except Err (Sampler K)) : Built Key State → Except Err (Built Key State)
  | .jax s => (f s).map .jax
  | .np s => (f s).map .np

/-- `task.mutual_information` (/repo/src/bmi/benchmark/task.py:43,67-69). -/
def Built.mi : Built Key State → ℝ
  | .jax s => s.mi
  | .np s => s.mi

/-- `task.dim_x` (/repo/src/bmi/benchmark/task.py:41,59-61). -/
def Built.dimX : Built Key State → Except Err ℕ
  | .jax s => s.dimX
  | .np s => s.dimX

/-- `task.dim_y` (/repo/src/bmi/benchmark/task.py:42,63-65). -/
def Built.dimY : Built Key State → Except Err ℕ
  | .jax s => s.dimY
  | .np s => s.dimY

/-- `task.sample(n_samples, seed)` (/repo/src/bmi/benchmark/task.py:75-76): the seed is an integer. -/
noncomputable def Built.sample : Built Key State → ℕ → ℤ → Except Err (Arr × Arr)
  | .jax s, n, z => s.sample n (.seed z)
  | .np s, n, z => s.sample n (.seed z)

/-- The samplers made by the constructors of tasks (/repo/src/bmi/benchmark/tasks/*.py: additive_noise.py:8,
bivariate_normal.py:8, bimodal_gaussians.py:11-22, multinormal.py:57-65,86-103, student.py:15-20,40-49,69-84, asinh.py:15-20,
half_cube.py:14-19, normal_cdf.py:14-19, wiggly.py:25-30, rotate.py:15-43, embeddings.py:10-16, power.py:16-26,
spiral.py:14-36).  `val` gives the number for a float of the call. -/
noncomputable def build {F : Type} (R : JaxRandom Key) (N : NpRandom State) (val : F → ℝ)
    (other : Call F → Except Err (Built Key State)) : Call F → Except Err (Built Key State)
  | .additive ε => (additiveUniform R (val ε)).map .jax
  | .binormal ρ => (bivariateNormal R (val ρ) 1 1 0 0).map .jax
  | .bimodal ρ => (bimodalTask R (val ρ)).map .jax
  | .dense dx dy off => (taskMultinormalDense R dx dy (val off)).map .jax
  | .sparse dx dy n s => (taskMultinormalSparse R dx dy n (val s)).map .jax
  | .studentIdentity dx dy df => (taskStudentIdentity R N dx dy df).map fun t => .np t.sampler
  | .studentDense dx dy df off => (taskStudentDense R N dx dy df (val off)).map fun t => .np t.sampler
  | .studentSparse dx dy df n s => (taskStudentSparse R N dx dy df n (val s)).map fun t => .np t.sampler
  | .asinh t => do (← build R N val other t).wrap fun s => asinhTask s
  | .halfCube t => do (← build R N val other t).wrap fun s => halfCubeTask s
  | .normalCdf t => do (← build R N val other t).wrap fun s => normalCdfTask s
  | .wiggly t => do (← build R N val other t).wrap fun s => wigglyTask s
  | .rotate t => do (← build R N val other t).wrap fun s => rotateTask s
  | .swissroll t => do (← build R N val other t).wrap fun s => swissrollTask s
  | .power t α => do (← build R N val other t).wrap fun s => powerTask s (val α)
  | .spiral t speed normalize => do (← build R N val other t).wrap fun s => spiralTask s (val speed) normalize
  | c => other c

/-! ## Names -/

/-- A task as made in `task_list.py`: the call and the name given to `Task` (/repo/src/bmi/benchmark/task.py:28,33). -/
structure Entry where
  name : List Char
  call : Call RegF

/-- `task_bivariate_normal` (/repo/src/bmi/benchmark/tasks/bivariate_normal.py:10-17). -/
def bivariate (ρ : RegF) : Entry :=
  ⟨['B', 'i', 'v', 'a', 'r', 'i', 'a', 't', 'e', ' ', 'n', 'o', 'r', 'm', 'a', 'l', ' ', '1', ' ', '×', ' ', '1'], .binormal ρ⟩

/-- `task_additive_noise` (/repo/src/bmi/benchmark/tasks/additive_noise.py:10-17). -/
def additive (ε : RegF) : Entry :=
  ⟨['U', 'n', 'i', 'f', 'o', 'r', 'm', ' ', '1', ' ', '×', ' ', '1', ' ', '(', 'a', 'd', 'd', 'i', 't', 'i', 'v', 'e', ' ', 'n', 'o', 'i', 's', 'e', '='] ++
    regFormat.repr ε ++ [')'], .additive ε⟩

/-- `task_bimodal_gaussians` (/repo/src/bmi/benchmark/tasks/bimodal_gaussians.py:24-31). -/
def bimodal (ρ : RegF) : Entry := ⟨['B', 'i', 'm', 'o', 'd', 'a', 'l', ' ', '1', ' ', '×', ' ', '1'], .bimodal ρ⟩

/-- `f"{dim_x} × {dim_y}"` in the names of tasks (e.g. /repo/src/bmi/benchmark/tasks/multinormal.py:68). -/
def times (dx dy : ℕ) : List Char := nat dx ++ [' ', '×', ' '] ++ nat dy

/-- `task_multinormal_dense` with the default correlation (/repo/src/bmi/benchmark/tasks/multinormal.py:51-73). -/
def dense (dx dy : ℕ) : Entry :=
  ⟨['M', 'u', 'l', 't', 'i', 'n', 'o', 'r', 'm', 'a', 'l', ' '] ++ times dx dy ++ [' ', '(', 'd', 'e', 'n', 's', 'e', ')'], .dense dx dy .f0_5⟩

/-- `task_multinormal_2pair` with the default strength (/repo/src/bmi/benchmark/tasks/multinormal.py:106-119). -/
def pair2 (dx dy : ℕ) : Entry :=
  ⟨['M', 'u', 'l', 't', 'i', 'n', 'o', 'r', 'm', 'a', 'l', ' '] ++ times dx dy ++ [' ', '(', '2', '-', 'p', 'a', 'i', 'r', ')'],
    twoPair dx dy⟩

/-- `task_student_identity` (/repo/src/bmi/benchmark/tasks/student.py:9-30). -/
def studentT (dx dy df : ℕ) : Entry :=
  ⟨['S', 't', 'u', 'd', 'e', 'n', 't', '-', 't', ' '] ++ times dx dy ++ [' ', '(', 'd', 'o', 'f', '='] ++ nat df ++ [')'],
    .studentIdentity dx dy df⟩

/-- `transform_asinh_task` (/repo/src/bmi/benchmark/tasks/asinh.py:21-26). -/
def asinh (t : Entry) : Entry := ⟨['A', 's', 'i', 'n', 'h', ' ', '@', ' '] ++ t.name, .asinh t.call⟩

/-- `transform_half_cube_task` (/repo/src/bmi/benchmark/tasks/half_cube.py:20-25). -/
def halfCube (t : Entry) : Entry := ⟨['H', 'a', 'l', 'f', '-', 'c', 'u', 'b', 'e', ' ', '@', ' '] ++ t.name, .halfCube t.call⟩

/-- `transform_normal_cdf_task` (/repo/src/bmi/benchmark/tasks/normal_cdf.py:20-25). -/
def normalCdf (t : Entry) : Entry := ⟨['N', 'o', 'r', 'm', 'a', 'l', ' ', 'C', 'D', 'F', ' ', '@', ' '] ++ t.name, .normalCdf t.call⟩

/-- `transform_wiggly_task` (/repo/src/bmi/benchmark/tasks/wiggly.py:31-36). -/
def wiggly (t : Entry) : Entry := ⟨['W', 'i', 'g', 'g', 'l', 'y', ' ', '@', ' '] ++ t.name, .wiggly t.call⟩

/-- `transform_swissroll_task` (/repo/src/bmi/benchmark/tasks/embeddings.py:18-23): the name is given by the caller. -/
def swissroll (t : Entry) (name : List Char) : Entry := ⟨name, .swissroll t.call⟩

/-- `transform_spiral_task` with the defaults (/repo/src/bmi/benchmark/tasks/spiral.py:10-12,38-43). -/
def spiralise (t : Entry) : Entry := ⟨['S', 'p', 'i', 'r', 'a', 'l', ' ', '@', ' '] ++ t.name, .spiral t.call .f1_0 true⟩

/-- `ONE_DIM_TASKS` (/repo/src/bmi/benchmark/task_list.py:13-29). -/
def oneDim : List Entry :=
  [bivariate .f0_75, normalCdf (bivariate .f0_75), additive .f0_1, additive .f0_75, bimodal .f0_75,
    wiggly (bivariate .f0_75), halfCube (bivariate .f0_75), studentT 1 1 1, asinh (studentT 1 1 1)]

/-- `EMBEDDINGS_TASKS` (/repo/src/bmi/benchmark/task_list.py:31-33). -/
def embeddings : List Entry :=
  [swissroll (normalCdf (bivariate .f0_75)) ['S', 'w', 'i', 's', 's', ' ', 'r', 'o', 'l', 'l', ' ', '2', ' ', '×', ' ', '1']]

/-- `MULTINORMAL_TASKS` (/repo/src/bmi/benchmark/task_list.py:35-45). -/
def multinormal : List Entry :=
  [dense 2 2, dense 3 3, dense 5 5, dense 25 25, dense 50 50, pair2 2 2, pair2 3 3, pair2 5 5, pair2 25 25]

/-- `STUDENT_TASKS` (/repo/src/bmi/benchmark/task_list.py:47-54). -/
def students : List Entry :=
  [studentT 2 2 1, studentT 2 2 2, studentT 3 3 2, studentT 3 3 3, studentT 5 5 2, studentT 5 5 3]

/-- `TRANSFORMED_TASKS` (/repo/src/bmi/benchmark/task_list.py:56-76). -/
def transformedTasks : List Entry :=
  [normalCdf (pair2 3 3), normalCdf (pair2 5 5), normalCdf (pair2 25 25),
    halfCube (pair2 3 3), halfCube (pair2 5 5), halfCube (pair2 25 25),
    spiralise (pair2 3 3), spiralise (pair2 5 5), spiralise (pair2 25 25),
    spiralise (normalCdf (pair2 3 3)), spiralise (normalCdf (pair2 5 5)), spiralise (normalCdf (pair2 25 25)),
    asinh (studentT 2 2 1), asinh (studentT 3 3 2), asinh (studentT 5 5 2)]

/-- `BENCHMARK_TASKS_LIST` (/repo/src/bmi/benchmark/task_list.py:79-81). -/
def entries : List Entry := oneDim ++ embeddings ++ multinormal ++ students ++ transformedTasks

/-- A `Task` (/repo/src/bmi/benchmark/task.py:21-34), without its parameters. -/
structure TaskObj (Key State : Type) where
  id : List Char
  name : List Char
  sampler : Built Key State

/-- The floats of `task_list.py` (/repo/src/bmi/benchmark/task_list.py:13,22-23 and the defaults in
/repo/src/bmi/benchmark/tasks/multinormal.py:54,109, /repo/src/bmi/benchmark/tasks/spiral.py:10). -/
noncomputable def regVal : RegF → ℝ
  | .f0_1 => 0.1
  | .f0_5 => 0.5
  | .f0_75 => 0.75
  | .f1_0 => 1
  | .f2_0 => 2

/-- `Task(sampler=…, task_id=…, task_name=…)` at the end of every constructor
(e.g. /repo/src/bmi/benchmark/tasks/asinh.py:21-26). -/
noncomputable def Entry.task (R : JaxRandom Key) (N : NpRandom State) (other : Call RegF → Except Err (Built Key State))
    (e : Entry) : Except Err (TaskObj Key State) := do
  let sampler ← build R N regVal other e.call
  .ok ⟨e.call.id regFormat, e.name, sampler⟩

/-- `{task.id: task for task in …}`: a later task with the same identifier replaces an earlier one
(/repo/src/bmi/benchmark/__init__.py:6). -/
def insertObj (d : List (List Char × TaskObj Key State)) (t : TaskObj Key State) : List (List Char × TaskObj Key State) :=
  if d.any (fun e => e.1 = t.id) then d.map fun e => if e.1 = t.id then (e.1, t) else e else d ++ [(t.id, t)]

/-- `BENCHMARK_TASKS`, as made when the package is imported (/repo/src/bmi/benchmark/__init__.py:4-6). -/
noncomputable def benchmarkTasks (R : JaxRandom Key) (N : NpRandom State) (other : Call RegF → Except Err (Built Key State)) :
    Except Err (List (List Char × TaskObj Key State)) := do
  let tasks ← entries.mapM (Entry.task R N other)
  .ok (tasks.foldl insertObj [])

end BMI.Registry
