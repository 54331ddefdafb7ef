import Verif.Model.Search
import Verif.Model.Student
import Verif.Model.TaskIds
import Verif.Model.ReadResults

/-!
Model of the tasks between dense and sparse interactions (/repo/workflows/projects/Beyond_Normal/_sparsity_utils.py) and of the
list of tasks of the figure (/repo/workflows/projects/Beyond_Normal/figure_sparsity.smk:13-24).

Numbers are real.  The search is `binsearch` of Search.lean with its default arguments `delta=1e-4, max_iter=5000`.
-/

namespace BMI.Sparsity

open BMI.Samplers BMI.MatrixUtils BMI.Search BMI.Student
open BMI.TaskIds (Call Format)

variable {Key : Type}

/-- `alpha_to_task(a).mutual_information`, `lambd_to_task(lambd).mutual_information`
(/repo/workflows/projects/Beyond_Normal/_sparsity_utils.py:9-20,27-38,44-55). -/
noncomputable def miOfTask (R : JaxRandom Key) (dim nInteracting : ℤ) (alpha lambd : ℝ) : Except Err ℝ := do
  let task ← taskMultinormalLvm R dim dim nInteracting alpha lambd 0 none
  .ok task.mi

open Classical in
/-- `get_initial_alpha` (/repo/workflows/projects/Beyond_Normal/_sparsity_utils.py:8-23).  `assert alpha_best` fails for
`None` and for 0. -/
noncomputable def getInitialAlpha (R : JaxRandom Key) (uniform : ℝ → ℝ → ℕ → ℝ) (mi : ℝ) (dim : ℤ) : Except Err ℝ := do
  let best ← binsearch realOps (fun a => miOfTask R dim 0 a 0) mi 0 10 1e-4 5000 uniform
  match best with
  | none => .error .assertionError
  | some a => if a = 0 then .error .assertionError else .ok a

/-- `lambd_to_task(lambd)` (/repo/workflows/projects/Beyond_Normal/_sparsity_utils.py:27-34,44-51).  For `lambd=None` also
`eta` is `None` (/repo/src/bmi/benchmark/tasks/multinormal.py:20); the parameters are checked first
(/repo/src/bmi/samplers/_matrix_utils.py:169-174), then the covariance fails with `AssertionError`
(/repo/src/bmi/samplers/_matrix_utils.py:282-283).  A task is represented by its parameters and its sampler. -/
noncomputable def lambdToTask (R : JaxRandom Key) (dim nInteracting : ℤ) (alpha : ℝ) :
    Option ℝ → Except Err (Call ℝ × Sampler Key)
  | some lambd => do
    let sampler ← taskMultinormalLvm R dim dim nInteracting alpha lambd 0 none
    .ok (.lvm dim.toNat dim.toNat nInteracting.toNat alpha lambd 0 lambd, sampler)
  | none => do
    let _ ← gaussianLVM dim dim nInteracting alpha 0 1 none 0 none 0 none
    .error .assertionError

/-- The strength found by the search (/repo/workflows/projects/Beyond_Normal/_sparsity_utils.py:36-38,53-55). -/
noncomputable def findLambd (R : JaxRandom Key) (uniform : ℝ → ℝ → ℕ → ℝ) (mi : ℝ) (dim nInteracting : ℤ) (alpha : ℝ) :
    Except Err (Option ℝ) :=
  binsearch realOps (fun lambd => miOfTask R dim nInteracting alpha lambd) mi 0 10 1e-4 5000 uniform

/-- `get_lambda_task` (/repo/workflows/projects/Beyond_Normal/_sparsity_utils.py:26-40). -/
noncomputable def getLambdaTask (R : JaxRandom Key) (uniform : ℝ → ℝ → ℕ → ℝ) (mi : ℝ) (dim : ℤ) (alpha : ℝ) :
    Except Err (Call ℝ × Sampler Key) := do
  let best ← findLambd R uniform mi dim dim alpha
  lambdToTask R dim dim alpha best

/-- `get_n_interacting_task` (/repo/workflows/projects/Beyond_Normal/_sparsity_utils.py:43-57). -/
noncomputable def getNInteractingTask (R : JaxRandom Key) (uniform : ℝ → ℝ → ℕ → ℝ) (mi : ℝ) (dim nInteracting : ℤ) :
    Except Err (Call ℝ × Sampler Key) := do
  let best ← findLambd R uniform mi dim nInteracting 0
  lambdToTask R dim nInteracting 0 best

/-- `np.linspace(0.0, a, n)`, called with `n=10` (/repo/workflows/projects/Beyond_Normal/figure_sparsity.smk:21). -/
noncomputable def linspace (a : ℝ) (n : ℕ) : List ℝ := (List.range n).map fun i : ℕ => (i : ℝ) * (a / ((n : ℝ) - 1))

/-- `TASK_LIST` (/repo/workflows/projects/Beyond_Normal/figure_sparsity.smk:13-25) for any wanted mutual information and
dimension. -/
noncomputable def taskList (R : JaxRandom Key) (uniform : ℝ → ℝ → ℕ → ℝ) (mi : ℝ) (dim : ℕ) :
    Except Err (List (Call ℝ × Sampler Key)) := do
  let initialAlpha ← getInitialAlpha R uniform mi dim
  let dense ← (linspace initialAlpha 10).mapM fun alpha => getLambdaTask R uniform mi dim alpha
  let sparse ← (List.range' 1 (dim - 1)).mapM fun n : ℕ => getNInteractingTask R uniform mi dim n
  .ok (dense ++ sparse)

/-- The dictionary entry as an integer (/repo/workflows/projects/Beyond_Normal/figure_sparsity.smk:73).  Other values are not
represented. -/
def intParam (p : Run.Dict (ReadResults.PVal ℝ)) (k : String) : Except Err ℤ :=
  match p.get k with
  | some (.int n) => .ok n
  | some _ => .error .typeError
  | none => .error .keyError

/-- The dictionary entry as a float (/repo/workflows/projects/Beyond_Normal/figure_sparsity.smk:74-77).  Other values are not
represented. -/
def floatParam (p : Run.Dict (ReadResults.PVal ℝ)) (k : String) : Except Err ℝ :=
  match p.get k with
  | some (.float x) => .ok x
  | some _ => .error .typeError
  | none => .error .keyError

/-- `params_to_lvm` (/repo/workflows/projects/Beyond_Normal/figure_sparsity.smk:69-78), by which the figure shows the
covariances. -/
def paramsToLvm (dim : ℤ) (p : Run.Dict (ReadResults.PVal ℝ)) : Except Err GaussianLVM := do
  let n ← intParam p "n_interacting"
  let alpha ← floatParam p "alpha"
  let lambd ← floatParam p "lambd"
  let beta ← floatParam p "beta_x"
  let eta ← floatParam p "eta_x"
  gaussianLVM dim dim n alpha lambd 1 none beta none eta none

end BMI.Sparsity
