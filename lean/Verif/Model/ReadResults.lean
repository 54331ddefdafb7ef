import Verif.Model.RunEstimator
import Verif.Model.Tables
import Verif.Model.Configs
import Mathlib.Analysis.SpecialFunctions.Pow.Real
import Mathlib.Algebra.Order.Floor.Ring

/-!
Model of reading results back (/repo/workflows/benchmark/_utils.py:6-33 and, with a bound on the estimates,
/repo/workflows/projects/Beyond_Normal/_common_figure_utils.py:70-102), of the parameters tasks write into the results
(/repo/src/bmi/benchmark/tasks/*.py) and of the table for the paper
(/repo/workflows/projects/Mixtures/v2_results_table.smk:37-148).

A row is a dictionary from column names to values; the values are of an arbitrary type, with YAML as a parameter.
-/

namespace BMI.ReadResults

open BMI.Run (Dict)
open BMI.Tables (Row)
open BMI.TaskIds (Call)

/-- `del d[k]` (/repo/workflows/benchmark/_utils.py:24,28). -/
def del {V : Type} (d : Dict V) (k : String) : Dict V := d.filter fun e => e.1 ≠ k

/-- The surroundings: `yaml.safe_load` of a cell (/repo/workflows/benchmark/_utils.py:15) and the view of a value as a
dictionary (lines 23, 27), which is a `TypeError` for values that are none. -/
structure Yaml (V : Type) where
  load : V → Except Err V
  asDict : V → Except Err (Dict V)

/-- `d[k]` (/repo/workflows/benchmark/_utils.py:15,23,27). -/
def lookup {V : Type} (d : Dict V) (k : String) : Except Err V :=
  match d.get k with
  | some v => .ok v
  | none => .error .keyError

/-- `results[col] = results[col].apply(yaml.safe_load)` for one row (/repo/workflows/benchmark/_utils.py:14-15). -/
def loadCol {V : Type} (Y : Yaml V) (col : String) (row : Dict V) : Except Err (Dict V) := do
  let v ← lookup row col
  let w ← Y.load v
  .ok (row.set col w)

/-- `row_dict |= row_dict[col]; del row_dict[col]` (/repo/workflows/benchmark/_utils.py:22-28). -/
def unpack {V : Type} (Y : Yaml V) (col : String) (row : Dict V) : Except Err (Dict V) := do
  let v ← lookup row col
  let d ← Y.asDict v
  .ok (del (row.update d) col)

/-- One row of `read_results` (/repo/workflows/benchmark/_utils.py:13-30). -/
def readRow {V : Type} (Y : Yaml V) (params info : Bool) (row : Dict V) : Except Err (Dict V) := do
  let row ← loadCol Y "task_params" row
  let row ← loadCol Y "additional_information" row
  let row ← if params then unpack Y "task_params" row else .ok row
  if info then unpack Y "additional_information" row else .ok row

/-- `read_results` (/repo/workflows/benchmark/_utils.py:6-33).  The data frame is the list of the rows; a column missing in a
row is NaN there.  Simplification: all rows of the file are processed one by one, while the code loads a whole column before
the next one, which matters only for the kind of the exception. -/
def readResults {V : Type} (Y : Yaml V) (params info : Bool) (rows : List (Dict V)) : Except Err (List (Dict V)) :=
  rows.mapM (readRow Y params info)

/-- `results[results["mi_estimate"] < max_mi_estimate]`
(/repo/workflows/projects/Beyond_Normal/_common_figure_utils.py:99-100): `less v` is the comparison, false for NaN; a frame
without the column (in particular without rows) is a `KeyError`. -/
def belowMax {V : Type} (less : V → Bool) (rows : List (Dict V)) : Except Err (List (Dict V)) :=
  if rows.any fun r => (r.get "mi_estimate").isSome then
    .ok (rows.filter fun r => (r.get "mi_estimate").any less)
  else .error .keyError

/-- The columns of results.csv (/repo/src/bmi/benchmark/result.py:16-23,
/repo/workflows/benchmark/_common_benchmark_rules.smk:48-50). -/
def columns : List String :=
  ["mi_estimate", "time_in_seconds", "success", "estimator_id", "task_id", "n_samples", "seed", "additional_information",
   "mi_true", "task_name", "task_params"]

/-- Values of task parameters (/repo/src/bmi/benchmark/tasks/*.py); matrices are not spelled out. -/
inductive PVal (F : Type) where
  | int (n : ℕ)
  | float (a : F)
  | bool (b : Bool)
  | matrix

/-- `task.params` of each constructor; lines in /repo/src/bmi/benchmark/tasks: additive_noise.py:14, bivariate_normal.py:14,
bimodal_gaussians.py:28, multinormal.py:47,69,99, student.py:27,53,92, mixtures.py:36,99-103,136,179,214,264, asinh.py:25,
half_cube.py:24, normal_cdf.py:24, wiggly.py:35, rotate.py:49, embeddings.py:22, scaling.py:37,84,111, power.py:32,
spiral.py:42; `one` is the default of `epsilon_x` (/repo/src/bmi/samplers/_matrix_utils.py:162-167). -/
def params {F : Type} (one : F) : Call F → Dict (PVal F)
  | .additive ε => [("epsilon", .float ε)]
  | .binormal ρ => [("gaussian_correlation", .float ρ)]
  | .bimodal ρ => [("gaussian_correlation", .float ρ)]
  | .lvm dx dy n α l β η => [("dim_x", .int dx), ("dim_y", .int dy), ("n_interacting", .int n), ("alpha", .float α),
      ("lambd", .float l), ("epsilon_x", .float one), ("epsilon_y", .float one), ("beta_x", .float β),
      ("beta_y", .float β), ("eta_x", .float η), ("eta_y", .float η)]
  | .dense _ _ off => [("off_diag", .float off), ("covariance", .matrix)]
  | .sparse _ _ n s => [("n_interacting", .int n), ("strength", .float s)]
  | .studentIdentity _ _ df => [("dof", .int df)]
  | .studentDense _ _ df off => [("dof", .int df), ("off_diag", .float off), ("dispersion", .matrix)]
  | .studentSparse _ _ df n s => [("dof", .int df), ("n_interacting", .int n), ("strength", .float s)]
  | .mixX ρ => [("gaussian_correlation", .float ρ)]
  | .mixAI => []
  | .galaxy s d => [("speed", .float s), ("distance", .float d)]
  | .waves n a f => [("n_components", .int n), ("wave_amplitude", .float a), ("wave_frequency", .float f)]
  | .concentric _ n => [("n_components", .int n)]
  | .inliers _ _ n s fr => [("n_interacting", .int n), ("strength", .float s), ("inlier_fraction", .float fr)]
  | .asinh t => params one t
  | .halfCube t => params one t
  | .normalCdf t => params one t
  | .wiggly t => params one t
  | .rotate t => params one t
  | .swissroll t => params one t
  | .rescale t => params one t
  | .uniformise t nq => (params one t).update [("n_quantiles", .int nq)]
  | .gaussianise t nq => (params one t).update [("n_quantiles", .int nq)]
  | .power t α => (params one t).update [("alpha", .float α)]
  | .spiral t s b => (params one t).update [("speed", .float s), ("normalize_speed", .bool b)]

/-- `std(ddof=1)` of a group (/repo/workflows/projects/Mixtures/v2_results_table.smk:52): NaN for fewer than two numbers. -/
noncomputable def std (vs : List (Option ℝ)) : Option ℝ :=
  let ws := vs.filterMap id
  let m := ws.sum / ws.length
  if ws.length < 2 then none
  else some (Real.sqrt ((ws.map fun w => (w - m) ^ 2).sum / ((ws.length : ℝ) - 1)))

/-- `np.maximum(np.ceil(100 * std) / 100, 0.01)` (/repo/workflows/projects/Mixtures/v2_results_table.smk:60). -/
noncomputable def shownStd (s : ℝ) : ℝ := max (⌈100 * s⌉ / 100) 0.01

/-- A cell of the table: mean and standard deviation, or the ground truth
(/repo/workflows/projects/Mixtures/v2_results_table.smk:62-87); how numbers are printed is left out. -/
inductive Cell where
  | runs (mean std : Option ℝ)
  | truth (mi : ℝ)

/-- `create_benchmark_table` (/repo/workflows/projects/Mixtures/v2_results_table.smk:37-89): estimator, task and cell.  The
selection of the number of samples (line 41) is overwritten in line 42, which starts from `results` again.  `pivot` raises
`ValueError` if a pair occurs twice. -/
noncomputable def paperEntries (results : List Row) (_nSamples : ℤ) : Except Err (List (String × String × Cell)) :=
  let data := results
  let merged : List (String × String × Cell) := (Tables.groupKeys data).map fun k =>
    let vs := (Tables.group data k).map Row.mi
    (k.1, k.2, Cell.runs (Tables.mean vs) ((std vs).map shownStd))
  let truths : List (String × String × Cell) := (results.map Row.task).dedup.filterMap fun t =>
    (results.find? fun r => r.task = t).map fun r => ("True MI", t, Cell.truth r.miTrue)
  let all : List (String × String × Cell) := merged ++ truths
  if (all.map fun e : String × String × Cell => ((e.1, e.2.1) : String × String)).Nodup then .ok all else .error .valueError

/-- `names` (/repo/workflows/projects/Mixtures/v2_results_table.smk:104-143). -/
def paperNames : Dict String :=
  [("asinh-student-identity-1-1-1", "Student (1-dim)"),
   ("1v1-additive-0.75", "Additive"),
   ("1v1-AI", "AI"),
   ("1v1-X-0.9", "X"),
   ("swissroll_x-normal_cdf-1v1-normal-0.75", "Swiss roll"),
   ("2v1-galaxy-0.5-3.0", "Galaxy"),
   ("2v1-waves-12-5.0-3.0", "Waves"),
   ("25v1-concentric_gaussians-5", "Concentric (25-dim, 5)"),
   ("3v1-concentric_gaussians-10", "Concentric (3-dim, 10)"),
   ("3v1-concentric_gaussians-5", "Concentric (3-dim, 5)"),
   ("5v1-concentric_gaussians-10", "Concentric (5-dim, 10)"),
   ("5v1-concentric_gaussians-5", "Concentric (5-dim, 5)"),
   ("multinormal-dense-5-5-0.5", "Normal (5-dim, dense)"),
   ("multinormal-dense-25-25-0.5", "Normal (25-dim, dense)"),
   ("multinormal-dense-50-50-0.5", "Normal (50-dim, dense)"),
   ("multinormal-sparse-5-5-2-2.0", "Normal (5-dim, sparse)"),
   ("multinormal-sparse-25-25-2-2.0", "Normal (25-dim, sparse)"),
   ("asinh-student-identity-2-2-1", "Student (2-dim)"),
   ("asinh-student-identity-3-3-2", "Student (3-dim)"),
   ("asinh-student-identity-5-5-2", "Student (5-dim)"),
   ("spiral-multinormal-sparse-3-3-2-2.0", "Spiral (3-dim)"),
   ("spiral-multinormal-sparse-5-5-2-2.0", "Spiral (5-dim)"),
   ("mult-sparse-w-inliers-5-5-2-2.0-0.2", "Inliers (5-dim, 0.2)"),
   ("mult-sparse-w-inliers-5-5-2-2.0-0.5", "Inliers (5-dim, 0.5)"),
   ("mult-sparse-w-inliers-25-25-2-2.0-0.2", "Inliers (25-dim, 0.2)"),
   ("mult-sparse-w-inliers-25-25-2-2.0-0.5", "Inliers (25-dim, 0.5)")]

/-- The table with the names of the tasks (/repo/workflows/projects/Mixtures/v2_results_table.smk:100-145). -/
noncomputable def paperTable (results : List Row) : Except Err (List (String × String × Cell)) := do
  let entries ← paperEntries results 5000
  entries.mapM fun e => do
    let name ← lookup paperNames e.2.1
    .ok (e.1, name, e.2.2)

end BMI.ReadResults
