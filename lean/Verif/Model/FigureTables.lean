import Verif.Model.Tables
import Mathlib.Analysis.SpecialFunctions.Log.Basic
import Mathlib.Data.EReal.Basic

/-!
Model of the tables behind the benchmark figures (/repo/workflows/projects/Beyond_Normal/_common_figure_utils.py:175-365).

Rows and NaN are as in `Verif.Model.Tables`; infinite estimates are left out, but the logarithm of the relative error can be
infinite, so that it is an extended real number or NaN (`none`).  pandas semantics assumed besides that listed there: the
column assigned from the grouped maximum is aligned on the three levels of the group; `mean` skips NaN, is NaN for a group
without numbers and for a group with both infinities; `sum` of booleans counts.  Heat maps and colours are not modelled.
-/

namespace BMI.FigureTables

open BMI.Tables (Row maximum)

/-- `results["mi_estimate"]` of the group of a row (/repo/workflows/projects/Beyond_Normal/_common_figure_utils.py:190-191). -/
def groupOf (results : List Row) (r : Row) : List Row :=
  results.filter fun s => s.est = r.est ∧ s.task = r.task ∧ s.n = r.n

open Classical in
/-- The column `neural_fail` (/repo/workflows/projects/Beyond_Normal/_common_figure_utils.py:178-195); `neural` tells whether
an identifier is in `neural_ids`. -/
noncomputable def neuralFail (neural : String → Bool) (results : List Row) (r : Row) : Bool :=
  let fail : Bool :=
    match r.mi with
    | none => false
    | some v => decide (v < 0) ||
      match maximum ((groupOf results r).map Row.mi) with
      | none => false
      | some m => decide (v < 0.1 * m)
  neural r.est && fail

open Classical in
/-- `np.log(data["mi_estimate"] / data["mi_true"])`
(/repo/workflows/projects/Beyond_Normal/_common_figure_utils.py:199-200) for numbers: division by zero gives infinities or
NaN, the logarithm of a negative number is NaN and that of zero is minus infinity. -/
noncomputable def logRelativeError (v t : ℝ) : Option EReal :=
  if t = 0 then
    if 0 < v then some ⊤ else none
  else if v / t < 0 then none
  else if v / t = 0 then some ⊥
  else some ((Real.log (v / t) : ℝ) : EReal)

/-- The column `log_relative_error` (/repo/workflows/projects/Beyond_Normal/_common_figure_utils.py:200). -/
noncomputable def errorOf (r : Row) : Option EReal := r.mi.bind fun v => logRelativeError v r.miTrue

open Classical in
/-- `mean` of a group of errors (/repo/workflows/projects/Beyond_Normal/_common_figure_utils.py:237-242,312-317). -/
noncomputable def meanError (vs : List (Option EReal)) : Option EReal :=
  let ws := vs.filterMap id
  if ws = [] then none
  else if ⊤ ∈ ws then
    if ⊥ ∈ ws then none else some ⊤
  else if ⊥ ∈ ws then some ⊥
  else some (((ws.map EReal.toReal).sum / ws.length : ℝ) : EReal)

open Classical in
/-- `abs() < np.log(1.5)` (/repo/workflows/projects/Beyond_Normal/_common_figure_utils.py:268-270). -/
noncomputable def isSolved (v : Option EReal) : Bool :=
  match v with
  | none => false
  | some x => decide (x ≠ ⊤ ∧ x ≠ ⊥ ∧ |x.toReal| < Real.log 1.5)

/-- `index.min()` (/repo/workflows/projects/Beyond_Normal/_common_figure_utils.py:276,285); `none` is NaN. -/
def indexMin : List ℤ → Option ℤ
  | [] => none
  | a :: l => some (l.foldl min a)

/-- `index.max()` (/repo/workflows/projects/Beyond_Normal/_common_figure_utils.py:279). -/
def indexMax : List ℤ → Option ℤ
  | [] => none
  | a :: l => some (l.foldl max a)

/-- What `n_samples_needed` can return (/repo/workflows/projects/Beyond_Normal/_common_figure_utils.py:276,283,285). -/
inductive Needed where
  | nan
  | num (n : ℤ)
  | inf
  deriving DecidableEq

/-- A minimum as a result (/repo/workflows/projects/Beyond_Normal/_common_figure_utils.py:276,285). -/
def Needed.ofMin : Option ℤ → Needed
  | none => .nan
  | some n => .num n

/-- `n_samples_needed` (/repo/workflows/projects/Beyond_Normal/_common_figure_utils.py:267-285) of the pairs of a number of
samples and an error.  `sort_index` is left out: minima and maxima do not depend on the order. -/
noncomputable def nSamplesNeeded (data : List (ℤ × Option EReal)) : Needed :=
  let solved := data.map fun d => (d.1, isSolved d.2)
  let failed := solved.filter fun d => !d.2
  match indexMax (failed.map Prod.fst) with
  | none => .ofMin (indexMin (solved.map Prod.fst))
  | some m =>
    let succeeded := (solved.map Prod.fst).filter fun n => m < n
    if succeeded = [] then .inf else .ofMin (indexMin succeeded)

/-- `n_samples_annotator` (/repo/workflows/projects/Beyond_Normal/_common_figure_utils.py:288-301), for numbers of samples
that are not negative. -/
def annotation (maxSamples : ℕ) : Needed → String
  | .nan => ""
  | .inf => ">" ++ toString (maxSamples / 1000) ++ "k"
  | .num n => if n < 1000 then toString n else toString (n / 1000) ++ "k"

/-- An entry of `tasks` (/repo/workflows/projects/Beyond_Normal/_common_figure_utils.py:209,221,245): key, name and mutual
information. -/
structure TaskInfo where
  id : String
  name : String
  mi : ℝ

/-- `make_benchmark_table` (/repo/workflows/projects/Beyond_Normal/_common_figure_utils.py:205-225): a list of labelled rows of
labelled cells, where `none` is NaN.  `names` is the lookup in `estimator_names`. -/
def makeTable {β : Type} (data : List (String × String × Option β)) (ests : List String) (tasks : List TaskInfo)
    (names : String → Option String) : Except Err (List (String × List (String × Option β))) :=
  if (data.map fun d => (d.1, d.2.1)).Nodup then
    let taskOrder := tasks.filter fun t => t.id ∈ data.map fun d => d.2.1
    let estOrder := ests.filter fun e => e ∈ data.map Prod.fst
    match estOrder.mapM fun e => (names e).map fun n => (e, n) with
    | none => .error .keyError
    | some cols => .ok (taskOrder.map fun t => (t.name, cols.map fun en =>
        (en.2, (data.find? fun d => d.1 = en.1 ∧ d.2.1 = t.id).bind fun d => d.2.2)))
  else .error .valueError

/-- The triples that occur, as in `groupby(["estimator_id", "task_id", "n_samples"])`
(/repo/workflows/projects/Beyond_Normal/_common_figure_utils.py:237,312,350). -/
def groupKeys3 (rows : List Row) : List (String × String × ℤ) := (rows.map fun r => (r.est, r.task, r.n)).dedup

/-- The rows of a group (/repo/workflows/projects/Beyond_Normal/_common_figure_utils.py:237,312,350). -/
def group3 (rows : List Row) (k : String × String × ℤ) : List Row := rows.filter fun r => (r.est, r.task, r.n) = k

/-- `data[~data["neural_fail"]]` after preprocessing
(/repo/workflows/projects/Beyond_Normal/_common_figure_utils.py:231-233,309-310). -/
noncomputable def kept (neural : String → Bool) (all rows : List Row) : List Row :=
  rows.filter fun r => !neuralFail neural all r

/-- `data[data["n_samples"] == data["n_samples"].max()]`
(/repo/workflows/projects/Beyond_Normal/_common_figure_utils.py:232,347). -/
def largest (rows : List Row) : List Row :=
  rows.filter fun r => some r.n = indexMax (rows.map Row.n)

/-- The table of annotations of `plot_benchmark_mi_estimate`
(/repo/workflows/projects/Beyond_Normal/_common_figure_utils.py:228-245): the list of values assigned to the column `True MI`
must have the length of the table. -/
noncomputable def miTable (neural : String → Bool) (results : List Row) (ests : List String) (tasks : List TaskInfo)
    (names : String → Option String) : Except Err (List (String × List (String × Option ℝ))) := do
  let data := kept neural results (largest results)
  let means := (groupKeys3 data).map fun k => (k.1, k.2.1, Tables.mean ((group3 data k).map Row.mi))
  let table ← makeTable means ests tasks names
  if table.length = tasks.length then
    .ok (List.zipWith (fun row t => (row.1, row.2 ++ [("True MI", some t.mi)])) table tasks)
  else .error .valueError

/-- The table of numbers of samples of `plot_benchmark_n_samples`
(/repo/workflows/projects/Beyond_Normal/_common_figure_utils.py:304-325). -/
noncomputable def samplesTable (neural : String → Bool) (results : List Row) (ests : List String) (tasks : List TaskInfo)
    (names : String → Option String) : Except Err (List (String × List (String × Option Needed))) :=
  let data := kept neural results results
  let means := (groupKeys3 data).map fun k => (k.1, k.2.1, k.2.2, meanError ((group3 data k).map errorOf))
  let pairs := (means.map fun m => (m.1, m.2.1)).dedup
  let needed := pairs.map fun p => (p.1, p.2, some (nSamplesNeeded
    ((means.filter fun m => (m.1, m.2.1) = p).map fun m => m.2.2)))
  makeTable needed ests tasks names

/-- The table of `plot_benchmark_neural_fails`
(/repo/workflows/projects/Beyond_Normal/_common_figure_utils.py:343-353). -/
noncomputable def failsTable (neural : String → Bool) (results : List Row) (ests : List String) (tasks : List TaskInfo)
    (names : String → Option String) : Except Err (List (String × List (String × Option ℕ))) :=
  let data := (largest results).filter fun r => neural r.est
  let sums := (groupKeys3 data).map fun k =>
    (k.1, k.2.1, some ((group3 data k).countP (neuralFail neural results)))
  makeTable sums ests tasks names

end BMI.FigureTables
