import Verif.Model.Basic
import Mathlib.Data.Real.Basic
import Mathlib.Data.List.Dedup

/-!
Model of the benchmark tables (/repo/workflows/benchmark/_utils.py:36-166).

A data frame is a list of rows; NaN is `none`.  Estimates are real numbers or NaN.  Not modelled: the colours
(`log_relative_error`), captions and formatting, infinite estimates, and reading the CSV file.  pandas semantics that
is assumed: `groupby` makes one group per combination of keys that occurs, `mean` and `max` skip NaN and give NaN for
a group without numbers, comparisons with NaN are false, `pivot` raises `ValueError` if a pair of labels occurs twice
and fills pairs that do not occur with NaN.
-/

namespace BMI.Tables

/-- The columns used of one result (/repo/workflows/benchmark/_utils.py:56,125). -/
structure Row where
  est : String
  task : String
  n : ℤ
  mi : Option ℝ
  miTrue : ℝ

/-- `mean` of a group (/repo/workflows/benchmark/_utils.py:70). -/
noncomputable def mean (vs : List (Option ℝ)) : Option ℝ :=
  let ws := vs.filterMap id
  if ws = [] then none else some (ws.sum / ws.length)

/-- `transform("max")` of a group (/repo/workflows/benchmark/_utils.py:44-46). -/
noncomputable def maximum (vs : List (Option ℝ)) : Option ℝ :=
  match vs.filterMap id with
  | [] => none
  | w :: ws => some (ws.foldl max w)

open Classical in
/-- `add_col_converged` (/repo/workflows/benchmark/_utils.py:43-48): the new column. -/
noncomputable def converged (results : List Row) (r : Row) : Bool :=
  let group := results.filter fun s => s.est = r.est ∧ s.task = r.task ∧ s.n = r.n
  match r.mi, maximum (group.map Row.mi) with
  | some v, some m => decide (v > 0.1 * m)
  | _, _ => false

/-- The pairs (estimator, task) that occur, as in `groupby(["estimator_id", "task_id"])`
(/repo/workflows/benchmark/_utils.py:68,132). -/
def groupKeys (rows : List Row) : List (String × String) := (rows.map fun r => (r.est, r.task)).dedup

/-- The rows of a group (/repo/workflows/benchmark/_utils.py:68,132). -/
def group (rows : List Row) (k : String × String) : List Row := rows.filter fun r => (r.est, r.task) = k

/-- One line of the long table: estimator, task, value. -/
abbrev Entry : Type := String × String × Option ℝ

/-- A pivoted table: whether a label occurs, and the cells (/repo/workflows/benchmark/_utils.py:91,144). -/
structure Table where
  tasks : List String
  ests : List String
  cell : String → String → Option ℝ

/-- `data.pivot(index="task_id", columns="estimator_id", values=...)`
(/repo/workflows/benchmark/_utils.py:91,144). -/
def pivot (data : List Entry) : Except Err Table :=
  if (data.map fun e => (e.1, e.2.1)).Nodup then
    .ok ⟨(data.map fun e => e.2.1).dedup, (data.map Prod.fst).dedup, fun t e =>
      (data.find? fun d => d.1 = e ∧ d.2.1 = t).bind fun d => d.2.2⟩
  else .error .valueError

/-- `results["n_samples"].max()` (/repo/workflows/benchmark/_utils.py:53,122). -/
def maxSamples (results : List Row) : Option ℤ :=
  match results.map Row.n with
  | [] => none
  | m :: ms => some (ms.foldl max m)

/-- `task_id_mi_true` with the name of the pseudo-estimator (/repo/workflows/benchmark/_utils.py:74-88): the first row
of every task. -/
def trueEntries (results : List Row) : List Entry :=
  (results.map Row.task).dedup.map fun t =>
    ("True MI", t, (results.find? fun r => r.task = t).map Row.miTrue)

/-- `create_benchmark_table` (/repo/workflows/benchmark/_utils.py:51-117) without formatting.  The first assignment to
`data` (line 55) is overwritten by the second one (line 56), which starts from `results` again. -/
noncomputable def benchmarkTable (results : List Row) (nSamples : Option ℤ) (convergedOnly : Bool) :
    Except Err Table :=
  let nSamples := nSamples.orElse fun _ => maxSamples results
  let _data := results.filter fun r => some r.n = nSamples
  let data := results
  let data := if convergedOnly then data.filter (converged data) else data
  let means : List Entry := (groupKeys data).map fun k => (k.1, k.2, mean ((group data k).map Row.mi))
  pivot (means ++ trueEntries results)

/-- `create_convergence_table` (/repo/workflows/benchmark/_utils.py:120-166) without formatting; line 125 again starts
from `results`. -/
noncomputable def convergenceTable (results : List Row) (nSamples : Option ℤ) : Except Err Table :=
  let nSamples := nSamples.orElse fun _ => maxSamples results
  let _data := results.filter fun r => some r.n = nSamples
  let data := results
  let fractions : List Entry := (groupKeys data).map fun k =>
    let flags := (group data k).map (converged data)
    let yes : ℝ := flags.count true
    let no : ℝ := flags.count false
    (k.1, k.2, some (yes / (yes + no)))
  pivot fractions

end BMI.Tables
