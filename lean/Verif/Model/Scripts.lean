import Verif.Model.Samplers

/-!
# Model of what happens when the programs in /repo/scripts are started

A program runs its import statements, in order, and then `main`.  Importing `a.b.c` imports `a`, `a.b` and `a.b.c`; each has to be found
(Python reference, section 5.3).  Modules which do not belong to the package are described by a parameter.  Simplification: a
module of `bmi` which is found is taken to run without exceptions (C90, C91 treat the values it defines).
-/

namespace BMI.Scripts

open BMI.Samplers

variable {Key : Type}

/-- A dotted name, `["bmi", "api"]` for `bmi.api` (/repo/scripts/Beyond_Normal/figures/concept/1v1.py:9). -/
abbrev ModName := List String

/-- All modules of the package: the directories below /repo/src/bmi, each of which has an `__init__.py`, and the other `.py` files in
them (/repo/src/bmi; which directory is installed: /repo/pyproject.toml:8). -/
def bmiModules : List ModName :=
  [["bmi"],
   ["bmi", "benchmark"],
   ["bmi", "benchmark", "result"],
   ["bmi", "benchmark", "task"],
   ["bmi", "benchmark", "task_list"],
   ["bmi", "benchmark", "tasks"],
   ["bmi", "benchmark", "tasks", "additive_noise"],
   ["bmi", "benchmark", "tasks", "asinh"],
   ["bmi", "benchmark", "tasks", "bimodal_gaussians"],
   ["bmi", "benchmark", "tasks", "bivariate_normal"],
   ["bmi", "benchmark", "tasks", "embeddings"],
   ["bmi", "benchmark", "tasks", "half_cube"],
   ["bmi", "benchmark", "tasks", "mixtures"],
   ["bmi", "benchmark", "tasks", "multinormal"],
   ["bmi", "benchmark", "tasks", "normal_cdf"],
   ["bmi", "benchmark", "tasks", "power"],
   ["bmi", "benchmark", "tasks", "rotate"],
   ["bmi", "benchmark", "tasks", "scaling"],
   ["bmi", "benchmark", "tasks", "spiral"],
   ["bmi", "benchmark", "tasks", "student"],
   ["bmi", "benchmark", "tasks", "wiggly"],
   ["bmi", "benchmark", "utils"],
   ["bmi", "benchmark", "utils", "dict_dumper"],
   ["bmi", "benchmark", "utils", "timer"],
   ["bmi", "estimators"],
   ["bmi", "estimators", "_histogram"],
   ["bmi", "estimators", "_kde"],
   ["bmi", "estimators", "base"],
   ["bmi", "estimators", "correlation"],
   ["bmi", "estimators", "external"],
   ["bmi", "estimators", "external", "external_estimator"],
   ["bmi", "estimators", "external", "gmm"],
   ["bmi", "estimators", "external", "julia_estimators"],
   ["bmi", "estimators", "external", "r_estimators"],
   ["bmi", "estimators", "function_wrapper"],
   ["bmi", "estimators", "ksg"],
   ["bmi", "estimators", "neural"],
   ["bmi", "estimators", "neural", "_backend_linear_memory"],
   ["bmi", "estimators", "neural", "_backend_quadratic_memory"],
   ["bmi", "estimators", "neural", "_basic_training"],
   ["bmi", "estimators", "neural", "_critics"],
   ["bmi", "estimators", "neural", "_estimators"],
   ["bmi", "estimators", "neural", "_mine_estimator"],
   ["bmi", "estimators", "neural", "_training_log"],
   ["bmi", "estimators", "neural", "_types"],
   ["bmi", "interface"],
   ["bmi", "plot_utils"],
   ["bmi", "plot_utils", "subplots_from_axsize"],
   ["bmi", "samplers"],
   ["bmi", "samplers", "_additive_uniform"],
   ["bmi", "samplers", "_discrete_continuous"],
   ["bmi", "samplers", "_independent_coordinates"],
   ["bmi", "samplers", "_matrix_utils"],
   ["bmi", "samplers", "_split_student_t"],
   ["bmi", "samplers", "_splitmultinormal"],
   ["bmi", "samplers", "_tfp"],
   ["bmi", "samplers", "_tfp", "_core"],
   ["bmi", "samplers", "_tfp", "_normal"],
   ["bmi", "samplers", "_tfp", "_product"],
   ["bmi", "samplers", "_tfp", "_student"],
   ["bmi", "samplers", "_tfp", "_wrapper"],
   ["bmi", "samplers", "_transformed"],
   ["bmi", "samplers", "base"],
   ["bmi", "transforms"],
   ["bmi", "transforms", "_invert_cdf"],
   ["bmi", "transforms", "_rotate"],
   ["bmi", "transforms", "simple"],
   ["bmi", "utils"]]

/-- What can be found: the modules of the package (/repo/src/bmi), and other modules as given (/repo/pyproject.toml). -/
def installed (others : ModName → Bool) (m : ModName) : Bool :=
  if m.head? = some "bmi" then bmiModules.contains m else others m

/-- `import a.b.c`, e.g. /repo/scripts/Beyond_Normal/figures/concept/1v1.py:9.  `ModuleNotFoundError` is an `ImportError`. -/
def importModule (found : ModName → Bool) (m : ModName) : Except Err Unit :=
  m.inits.tail.forM fun p => if found p then .ok () else .error .importError

/-- A program: imports and then the call of `main` (/repo/scripts/Beyond_Normal/figures/concept/1v1.py:3-9, 179-180 and others). -/
def runScript {α : Type} (found : ModName → Bool) (imports : List ModName) (main : Except Err α) : Except Err α := do
  imports.forM (importModule found)
  main

/-! ## The imports -/

/-- /repo/scripts/Beyond_Normal/figures/concept/1v1.py:3-9. -/
def imports11 : List ModName := [["typing"], ["jax"], ["matplotlib", "pyplot"], ["numpy"], ["bmi", "api"]]

/-- /repo/scripts/Beyond_Normal/figures/concept/2v1.py:1-4. -/
def imports21 : List ModName := [["matplotlib", "pyplot"], ["numpy"], ["bmi", "api"]]

/-- /repo/scripts/Beyond_Normal/experimental/ksg_spiral.py:3-7. -/
def importsSpiral : List ModName := [["argparse"], ["numpy"], ["bmi", "api"]]

/-- /repo/scripts/Beyond_Normal/experimental/ksg_time_comparison.py:3-9. -/
def importsTime : List ModName := [["argparse"], ["time"], ["numpy"], ["jax"], ["bmi", "api"]]

/-- /repo/scripts/Beyond_Normal/experimental/run_external_estimator_test.py:1. -/
def importsExternal : List ModName := [["bmi", "api"]]

/-- /repo/scripts/Beyond_Normal/benchmark/visualise_one_dimensional.py:1-10. -/
def importsOneDim : List ModName :=
  [["pathlib"], ["typing"], ["jax"], ["matplotlib", "pyplot"], ["numpy"], ["sklearn", "feature_selection"], ["bmi", "api"],
   ["bmi", "benchmark", "tasks", "one_dimensional"]]

/-- /repo/scripts/Mixtures/plot_appearing_and_vanishing_mi.py:3-4. -/
def importsAppearing : List ModName := [["matplotlib", "pyplot"], ["numpy"]]

/-- /repo/scripts/Mixtures/validate_chi2_combination.py:4-9. -/
def importsChi : List ModName := [["jax"], ["matplotlib", "pyplot"], ["numpy"], ["bmi", "samplers"], ["bmi", "samplers", "_tfp"]]

/-- /repo/scripts/Beyond_Normal/figures/visualise_distributions.py:3-5. -/
def importsDistributions : List ModName := [["matplotlib", "pyplot"], ["bmi", "benchmark", "task_list"]]

/-- /repo/scripts/Beyond_Normal/figures/student/correction.py:11-16. -/
def importsCorrection : List ModName := [["typing"], ["matplotlib", "pyplot"], ["subplots_from_axsize"], ["bmi"]]

/-! ## The comparison of times -/

/-- The parsed arguments (/repo/scripts/Beyond_Normal/experimental/ksg_time_comparison.py:58-85); `argparse` refuses other values of `ksg_type`
(line 64). -/
structure TimeArgs where
  slow : Bool := false
  nSamples : ℤ := 1000
  dimX : ℤ := 2
  dimY : Option ℤ := none
  neighborhood : ℤ := 5
  nJobs : ℤ := 1
  chunkSize : ℤ := 10

/-- `get_args` (/repo/scripts/Beyond_Normal/experimental/ksg_time_comparison.py:88-99).  `None or d` and `0 or d` are `d`. -/
def getArgs (a : TimeArgs) : Except Err TimeArgs :=
  if ¬ 1 ≤ a.neighborhood then .error .assertionError
  else if ¬ 1 ≤ a.nSamples then .error .assertionError
  else if ¬ 1 ≤ a.chunkSize then .error .assertionError
  else if ¬ 1 ≤ a.dimX then .error .assertionError
  else .ok { a with dimY := some (match a.dimY with
    | none => a.dimX
    | some d => if d = 0 then a.dimX else d) }

/-- The estimators, as parameters: neighbours, jobs (and size of chunks) and the arrays to the estimate
(/repo/src/bmi/estimators/ksg.py:33-145, 150-245). -/
structure Estimators where
  slow : List ℕ → ℤ → Arr → Arr → Except Err ℝ
  numpy : List ℕ → ℤ → ℕ → Arr → Arr → Except Err ℝ

/-- `get_estimator` (/repo/scripts/Beyond_Normal/experimental/ksg_time_comparison.py:102-115). -/
def getEstimator (E : Estimators) (a : TimeArgs) : Arr → Arr → Except Err ℝ :=
  if a.slow then E.slow [a.neighborhood.toNat] a.nJobs else E.numpy [a.neighborhood.toNat] a.nJobs a.chunkSize.toNat

/-- `np.eye` (/repo/scripts/Beyond_Normal/experimental/ksg_time_comparison.py:132). -/
def eye (n : ℕ) : Arr := rowsOf fun i j : Fin n => if i = j then 1 else 0

/-- `main` (/repo/scripts/Beyond_Normal/experimental/ksg_time_comparison.py:118-145): the numbers printed as calculated and as true.  Settings and
times are left out.  `np.zeros` raises for a negative size. -/
noncomputable def timeMain (R : JaxRandom Key) (E : Estimators) (a : TimeArgs) : Except Err (ℝ × ℝ) := do
  let a ← getArgs a
  let dimY := a.dimY.getD 0
  let total := a.dimX + dimY
  if total < 0 then .error .valueError
  else
    let s ← splitMultinormal R a.dimX dimY (eye total.toNat) (some (List.replicate total.toNat 0))
    let xy ← s.sample a.nSamples.toNat (.key (R.prngKey 10))
    let mi ← getEstimator E a xy.1 xy.2
    .ok (mi, s.mi)

end BMI.Scripts
