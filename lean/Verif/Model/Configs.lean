import Verif.Model.TaskIds

/-!
The configurations of the benchmark workflow (/repo/workflows/benchmark/v1/config.py, v2/config.py, demo/config.py): names of
the estimators, calls making the tasks, sample sizes and seeds.  Every task is passed through `transform_rescale` with the
identifier and name of the original task (v1/config.py:104-111), so the calls stand for the identifiers in `TASKS_DICT`.
-/

namespace BMI.Workflow

open BMI.TaskIds (Call Format)

/-- The floats of the configurations, default arguments included. -/
inductive CfgF where
  | f0_2 | f0_5 | f0_75 | f0_9 | f1_0 | f2_0 | f3_0 | f5_0
  deriving DecidableEq

/-- Their Python `repr` and `.5f` renderings. -/
def cfgFormat : Format CfgF where
  repr
    | .f0_2 => ['0', '.', '2']
    | .f0_5 => ['0', '.', '5']
    | .f0_75 => ['0', '.', '7', '5']
    | .f0_9 => ['0', '.', '9']
    | .f1_0 => ['1', '.', '0']
    | .f2_0 => ['2', '.', '0']
    | .f3_0 => ['3', '.', '0']
    | .f5_0 => ['5', '.', '0']
  fix5
    | .f0_2 => ['0', '.', '2', '0', '0', '0', '0']
    | .f0_5 => ['0', '.', '5', '0', '0', '0', '0']
    | .f0_75 => ['0', '.', '7', '5', '0', '0', '0']
    | .f0_9 => ['0', '.', '9', '0', '0', '0', '0']
    | .f1_0 => ['1', '.', '0', '0', '0', '0', '0']
    | .f2_0 => ['2', '.', '0', '0', '0', '0', '0']
    | .f3_0 => ['3', '.', '0', '0', '0', '0', '0']
    | .f5_0 => ['5', '.', '0', '0', '0', '0', '0']

/-- `TASK_MULTINORMAL_BIVAR_1x1` (/repo/workflows/benchmark/v1/config.py:50). -/
def bivar : Call CfgF := .binormal .f0_75

/-- `multinormal.task_multinormal_2pair(d, d)` (/repo/workflows/benchmark/v1/config.py:51-53). -/
def pair2 (d : ℕ) : Call CfgF := .sparse d d 2 .f2_0

/-- `multinormal.task_multinormal_dense(d, d)` (/repo/workflows/benchmark/v1/config.py:71-75). -/
def dense2 (d : ℕ) : Call CfgF := .dense d d .f0_5

/-- `spiralise(t)` (/repo/workflows/benchmark/v1/config.py:94-99). -/
def spiralised (t : Call CfgF) : Call CfgF := .spiral t .f1_0 true

/-- Names of the estimators, tasks, sample sizes and seeds of a configuration. -/
structure Setup where
  estimators : List (List Char)
  tasks : List (Call CfgF)
  ns : List ℕ
  seeds : List ℤ

/-- /repo/workflows/benchmark/v1/config.py:25-124. -/
def setupV1 : Setup where
  estimators := ["MINE-10_5".toList, "InfoNCE-10_5".toList, "NWJ-10_5".toList, "Donsker-Varadhan-10_5".toList,
    "R-KSG-I-10".toList, "R-LNN".toList, "Julia-Hist-10".toList, "Julia-Transfer-30".toList, "CCA".toList]
  tasks :=
    [bivar, .normalCdf bivar, .additive .f0_75, .bimodal .f0_75, .wiggly bivar, .halfCube bivar,
     .studentIdentity 1 1 1, .asinh (.studentIdentity 1 1 1),
     .swissroll (.normalCdf bivar),
     dense2 2, dense2 3, dense2 5, dense2 25, dense2 50, pair2 2, pair2 3, pair2 5, pair2 25,
     .studentIdentity 2 2 1, .studentIdentity 2 2 2, .studentIdentity 3 3 2, .studentIdentity 3 3 3,
     .studentIdentity 5 5 2, .studentIdentity 5 5 3,
     .normalCdf (pair2 3), .normalCdf (pair2 5), .normalCdf (pair2 25),
     .halfCube (pair2 3), .halfCube (pair2 5), .halfCube (pair2 25),
     spiralised (pair2 3), spiralised (pair2 5), spiralised (pair2 25),
     spiralised (.normalCdf (pair2 3)), spiralised (.normalCdf (pair2 5)), spiralised (.normalCdf (pair2 25)),
     .asinh (.studentIdentity 2 2 1), .asinh (.studentIdentity 3 3 2), .asinh (.studentIdentity 5 5 2)]
  ns := [5000]
  seeds := (List.range 10).map Int.ofNat

/-- /repo/workflows/benchmark/v2/config.py:20-98. -/
def setupV2 : Setup where
  estimators := ["NWJ".toList, "MINE".toList, "InfoNCE".toList, "Donsker-Varadhan".toList, "KSG-10".toList, "CCA".toList]
  tasks :=
    [.additive .f0_75, .asinh (.studentIdentity 1 1 1), .mixX .f0_9, .mixAI,
     .swissroll (.normalCdf bivar),
     .waves 12 .f5_0 .f3_0, .galaxy .f0_5 .f3_0,
     .concentric 3 5, .concentric 5 5, .concentric 3 10, .concentric 5 10, .concentric 25 5,
     dense2 5, dense2 25, dense2 50, pair2 5, pair2 25,
     .inliers 5 5 2 .f2_0 .f0_2, .inliers 25 25 2 .f2_0 .f0_2, .inliers 5 5 2 .f2_0 .f0_5, .inliers 25 25 2 .f2_0 .f0_5,
     .asinh (.studentIdentity 2 2 1), .asinh (.studentIdentity 3 3 2), .asinh (.studentIdentity 5 5 2),
     spiralised (pair2 3), spiralised (pair2 5)]
  ns := [5000]
  seeds := (List.range 10).map Int.ofNat

/-- /repo/workflows/benchmark/demo/config.py:15-53. -/
def setupDemo : Setup where
  estimators := ["KSG-5".toList, "CCA".toList]
  tasks := [.swissroll (.normalCdf bivar), dense2 3]
  ns := [500]
  seeds := [1, 2]

end BMI.Workflow
