import Verif.Model.Training
import Verif.Model.SampleIO

/-! Model of `Task` and `TaskMetadata` (/repo/src/bmi/benchmark/task.py). -/

namespace BMI.Task

open BMI.Training (Fl)

/-- A sampler as the task sees it (`ISampler`, /repo/src/bmi/interface.py:69-108): dimensions and mutual
information may raise; `sample n seed` returns the two arrays or raises.  Mutual information is a float, possibly
NaN. -/
structure Sampler (α F : Type) where
  dimX : Except Err ℕ
  dimY : Except Err ℕ
  mi : Except Err (Fl α)
  sample : ℕ → ℤ → Except Err (SampleIO.NdArr F × SampleIO.NdArr F)

/-- `Task` (/repo/src/bmi/benchmark/task.py:21-34). `P` is the type of parameter dictionaries, given as lists
of entries; `none` is Python's `None`. -/
structure Task (α F P : Type) where
  sampler : Sampler α F
  taskId : String
  taskName : String
  params : Option (List P)

/-- `TaskMetadata` (/repo/src/bmi/benchmark/task.py:12-18). -/
structure Metadata (α P : Type) where
  taskId : String
  taskName : String
  dimX : ℕ
  dimY : ℕ
  miTrue : Fl α
  params : List P

variable {α F P : Type} [LinearOrder α] [Zero α]

/-- `pydantic.NonNegativeFloat` (/repo/src/bmi/benchmark/task.py:17): `v >= 0`, false for NaN. -/
def nonNegativeFloat : Fl α → Bool
  | .nan => false
  | .num a => decide (0 ≤ a)

/-- `Task.metadata` (/repo/src/bmi/benchmark/task.py:36-45). -/
def Task.metadata (t : Task α F P) : Except Err (Metadata α P) := do
  let dx ← t.sampler.dimX
  let dy ← t.sampler.dimY
  let mi ← t.sampler.mi
  if nonNegativeFloat mi then
    .ok { taskId := t.taskId, taskName := t.taskName, dimX := dx, dimY := dy, miTrue := mi,
          params := t.params.getD [] }
  else .error .validationError

/-- `Task.id` (/repo/src/bmi/benchmark/task.py:47-49). -/
def Task.id (t : Task α F P) : Except Err String := t.metadata.map (·.taskId)
/-- `Task.name` (/repo/src/bmi/benchmark/task.py:51-53). -/
def Task.name (t : Task α F P) : Except Err String := t.metadata.map (·.taskName)
/-- `Task.params` (/repo/src/bmi/benchmark/task.py:55-57). -/
def Task.getParams (t : Task α F P) : Except Err (List P) := t.metadata.map (·.params)
/-- `Task.dim_x` (/repo/src/bmi/benchmark/task.py:59-61). -/
def Task.dimX (t : Task α F P) : Except Err ℕ := t.metadata.map (·.dimX)
/-- `Task.dim_y` (/repo/src/bmi/benchmark/task.py:63-65). -/
def Task.dimY (t : Task α F P) : Except Err ℕ := t.metadata.map (·.dimY)
/-- `Task.mutual_information` (/repo/src/bmi/benchmark/task.py:67-69). -/
def Task.mi (t : Task α F P) : Except Err (Fl α) := t.metadata.map (·.miTrue)
/-- `Task.sample` (/repo/src/bmi/benchmark/task.py:75-76). -/
def Task.sample (t : Task α F P) (n : ℕ) (seed : ℤ) :
    Except Err (SampleIO.NdArr F × SampleIO.NdArr F) := t.sampler.sample n seed
/-- `Task.save_sample` (/repo/src/bmi/benchmark/task.py:78-80), returning the file written. -/
def Task.saveSample (t : Task α F P) (n : ℕ) (seed : ℤ) : Except Err (SampleIO.Csv F) := do
  let (x, y) ← t.sample n seed
  SampleIO.saveSample x y

end BMI.Task
