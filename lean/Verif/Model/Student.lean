import Verif.Model.MatrixUtils
import Mathlib.Analysis.SpecialFunctions.Gamma.Basic
import Mathlib.Analysis.Calculus.LogDeriv

/-!
# Model of the Student-t sampler and of the Gaussian and Student-t tasks

* `_differential_entropy` and `SplitStudentT` (/repo/src/bmi/samplers/_split_student_t.py),
* the tasks of /repo/src/bmi/benchmark/tasks/multinormal.py and /repo/src/bmi/benchmark/tasks/student.py.
-/

namespace BMI.Student

open BMI.Samplers BMI.MatrixUtils

/-- The operations on floats used at /repo/src/bmi/samplers/_split_student_t.py:21-26, 83 and 155.  `ofReal` makes a float from a
literal, an integer or `np.pi`; `gamma` and `digamma` are those of `scipy.special`. -/
structure FloatFns (F : Type) where
  ofReal : ℝ → F
  add : F → F → F
  sub : F → F → F
  mul : F → F → F
  neg : F → F
  log : F → F
  gamma : F → F
  digamma : F → F
  nonpos : F → Prop

/-- Exact arithmetic and the mathematical functions. -/
noncomputable def realFns : FloatFns ℝ where
  ofReal := id
  add := (· + ·)
  sub := (· - ·)
  mul := (· * ·)
  neg := fun x => -x
  log := Real.log
  gamma := Real.Gamma
  digamma := logDeriv Real.Gamma
  nonpos := fun x => x ≤ 0

variable {F : Type}

/-- `_differential_entropy` (/repo/src/bmi/samplers/_split_student_t.py:12-26). -/
noncomputable def differentialEntropy (o : FloatFns F) (k : ℕ) (dof : F) : F :=
  let halfSum := o.mul (o.ofReal 0.5) (o.add dof (o.ofReal k))
  let digammaTerm := o.mul halfSum (o.sub (o.digamma halfSum) (o.digamma (o.mul (o.ofReal 0.5) dof)))
  let logTerm := o.add (o.add (o.neg (o.log (o.gamma halfSum))) (o.log (o.gamma (o.mul (o.ofReal 0.5) dof))))
    (o.mul (o.mul (o.ofReal 0.5) (o.ofReal k)) (o.log (o.mul dof (o.ofReal Real.pi))))
  o.add logTerm digammaTerm

/-- `SplitStudentT.mi_correction_function` (/repo/src/bmi/samplers/_split_student_t.py:157-166). -/
noncomputable def miCorrectionFunction (o : FloatFns F) (df : F) (dimX dimY : ℕ) : F :=
  let hX := differentialEntropy o dimX df
  let hY := differentialEntropy o dimY df
  let hXY := differentialEntropy o (dimX + dimY) df
  o.sub (o.add hX hY) hXY

open Classical in
/-- The check of `df` in the constructor (/repo/src/bmi/samplers/_split_student_t.py:83-84). -/
noncomputable def checkDf (o : FloatFns F) (df : F) : Except Err Unit :=
  if o.nonpos df then .error .valueError else .ok ()

/-- `SplitStudentT.mutual_information` (/repo/src/bmi/samplers/_split_student_t.py:145-155), given the value of
`mi_normal()`. -/
noncomputable def mutualInformation (o : FloatFns F) (miNormal df : F) (dimX dimY : ℕ) : F :=
  o.add miNormal (miCorrectionFunction o df dimX dimY)

/-- Floats with their special values. -/
inductive Ext where
  | fin (x : ℝ)
  | pinf
  | ninf
  | nan

/-- The largest double. -/
noncomputable def maxDouble : ℝ := 2 ^ 1024 - 2 ^ 970

namespace Ext

/-- IEEE negation (/repo/src/bmi/samplers/_split_student_t.py:24). -/
noncomputable def neg : Ext → Ext
  | fin x => fin (-x)
  | pinf => ninf
  | ninf => pinf
  | nan => nan

/-- IEEE addition (/repo/src/bmi/samplers/_split_student_t.py:21-26), exact on finite numbers. -/
noncomputable def add : Ext → Ext → Ext
  | fin x, fin y => fin (x + y)
  | nan, _ => nan
  | _, nan => nan
  | pinf, ninf => nan
  | ninf, pinf => nan
  | pinf, _ => pinf
  | ninf, _ => ninf
  | fin _, pinf => pinf
  | fin _, ninf => ninf

open Classical in
/-- IEEE multiplication (/repo/src/bmi/samplers/_split_student_t.py:21-24), exact on finite numbers. -/
noncomputable def mul : Ext → Ext → Ext
  | fin x, fin y => fin (x * y)
  | nan, _ => nan
  | _, nan => nan
  | pinf, pinf => pinf
  | pinf, ninf => ninf
  | ninf, pinf => ninf
  | ninf, ninf => pinf
  | pinf, fin y => if 0 < y then pinf else if y < 0 then ninf else nan
  | ninf, fin y => if 0 < y then ninf else if y < 0 then pinf else nan
  | fin x, pinf => if 0 < x then pinf else if x < 0 then ninf else nan
  | fin x, ninf => if 0 < x then ninf else if x < 0 then pinf else nan

open Classical in
/-- `np.log` (/repo/src/bmi/samplers/_split_student_t.py:24). -/
noncomputable def log : Ext → Ext
  | fin x => if 0 < x then fin (Real.log x) else if x = 0 then ninf else nan
  | pinf => pinf
  | _ => nan

open Classical in
/-- `scipy.special.gamma` (/repo/src/bmi/samplers/_split_student_t.py:24) for positive arguments: values beyond the largest
double are infinite.  Other arguments, which do not occur for an accepted `df`, are sent to NaN. -/
noncomputable def gamma : Ext → Ext
  | fin x => if 0 < x then (if Real.Gamma x ≤ maxDouble then fin (Real.Gamma x) else pinf) else nan
  | pinf => pinf
  | _ => nan

open Classical in
/-- `scipy.special.digamma` (/repo/src/bmi/samplers/_split_student_t.py:22) for positive arguments; others, which do not
occur for an accepted `df`, are sent to NaN. -/
noncomputable def digamma : Ext → Ext
  | fin x => if 0 < x then fin (logDeriv Real.Gamma x) else nan
  | pinf => pinf
  | _ => nan

/-- Floats with special values.  Finite arithmetic is exact; the only overflow represented is that of `gamma`. -/
noncomputable def fns : FloatFns Ext where
  ofReal := fin
  add := add
  sub := fun x y => add x (neg y)
  mul := mul
  neg := neg
  log := log
  gamma := gamma
  digamma := digamma
  nonpos := fun x => match x with
    | fin x => x ≤ 0
    | pinf => False
    | ninf => True
    | nan => False

end Ext

/-- NumPy and SciPy functions used at /repo/src/bmi/samplers/_split_student_t.py:95-101: making a random state from a
seed (`ValueError` outside of `0 ≤ seed < 2³²`) and `stats.multivariate_t.rvs` before its result is squeezed. -/
structure NpRandom (State : Type) where
  randomState : ℤ → State
  multivariateT : State → (n d : ℕ) → (loc : Fin d → ℝ) → (shape : Matrix (Fin d) (Fin d) ℝ) → (df : ℝ) → Fin n → Fin d → ℝ

/-- `check_random_state` of SciPy, called with the argument `rng` (/repo/src/bmi/samplers/_split_student_t.py:100): a seed
or a random state. -/
def checkRandomState {State : Type} (N : NpRandom State) : Rng State → Except Err State
  | .seed s => if 0 ≤ s ∧ s < 2 ^ 32 then .ok (N.randomState s) else .error .valueError
  | .key k => .ok k

/-- A `SplitStudentT` object: as a sampler, and its other methods
(/repo/src/bmi/samplers/_split_student_t.py:109-155). -/
structure StudentT (State : Type) where
  sampler : Sampler State
  df : ℝ
  covariance : Except Err Arr
  miNormal : ℝ
  miCorrection : ℝ

variable {Key State : Type}

/-- `SplitStudentT` (/repo/src/bmi/samplers/_split_student_t.py:29-166).  `df` is a finite number; infinite degrees of
freedom and overflow are treated with `Ext.fns`.  SciPy squeezes its result, so that one point gives an array of shape
`(dim_total,)` and the assertion of lines 102-105 fails; other numbers of points give arrays of the right shape because
`dim_total ≥ 2`. -/
noncomputable def splitStudentT (R : JaxRandom Key) (N : NpRandom State) (dimX dimY : ℤ) (df : ℝ) (dispersion : Arr)
    (mean : Option (List ℝ)) : Except Err (StudentT State) := do
  validateDimensions dimX dimY
  let dx := dimX.toNat
  let dy := dimY.toNat
  let mean := mean.getD (List.replicate (dx + dy) 0)
  let multinormal ← splitMultinormal R dimX dimY dispersion (some mean)
  checkDf realFns df
  .ok { sampler :=
          { dimX := .ok dx
            dimY := .ok dy
            sample := fun n rng => do
              let state ← checkRandomState N rng
              let xy := rowsOf (N.multivariateT state n (dx + dy) (toVec (dx + dy) mean) (toMatrix (dx + dy) dispersion) df)
              if n = 1 then .error .assertionError
              else .ok (xy.map (·.take dx), xy.map (·.drop dx))
            mi := mutualInformation realFns multinormal.mi df dx dy }
        df := df
        covariance := if df ≤ 2 then .error .valueError
          else .ok (dispersion.map (·.map fun x => df * x / (df - 2.0)))
        miNormal := multinormal.mi
        miCorrection := miCorrectionFunction realFns df dx dy }

/-- `np.eye(dim_x + dim_y) * (1 - off_diag) + off_diag` (/repo/src/bmi/benchmark/tasks/multinormal.py:57,
/repo/src/bmi/benchmark/tasks/student.py:40).  `np.eye` of a negative number raises `ValueError`. -/
noncomputable def denseMatrix (dimX dimY : ℤ) (offDiag : ℝ) : Except Err Arr :=
  if dimX + dimY < 0 then .error .valueError
  else
    let n := (dimX + dimY).toNat
    .ok (rowsOf fun i j : Fin n => (if i = j then 1 else 0) * (1 - offDiag) + offDiag)

/-- The sampler of `task_multinormal_dense` (/repo/src/bmi/benchmark/tasks/multinormal.py:51-73). -/
noncomputable def taskMultinormalDense (R : JaxRandom Key) (dimX dimY : ℤ) (offDiag : ℝ) : Except Err (Sampler Key) := do
  let covariance ← denseMatrix dimX dimY offDiag
  splitMultinormal R dimX dimY covariance none

/-- The sampler of `task_multinormal_lvm` (/repo/src/bmi/benchmark/tasks/multinormal.py:10-48). -/
noncomputable def taskMultinormalLvm (R : JaxRandom Key) (dimX dimY nInteracting : ℤ) (alpha lambd beta : ℝ)
    (eta : Option ℝ) : Except Err (Sampler Key) := do
  let eta := eta.getD lambd
  let params ← gaussianLVM dimX dimY nInteracting alpha lambd 1 none beta none eta none
  let correlation ← params.correlation
  splitMultinormal R dimX dimY (rowsOf correlation) none

/-- The sampler of `task_multinormal_sparse` (/repo/src/bmi/benchmark/tasks/multinormal.py:76-103). -/
noncomputable def taskMultinormalSparse (R : JaxRandom Key) (dimX dimY nInteracting : ℤ) (strength : ℝ) :
    Except Err (Sampler Key) :=
  taskMultinormalLvm R dimX dimY nInteracting 0 strength 0 (some strength)

/-- The sampler of `task_multinormal_2pair` (/repo/src/bmi/benchmark/tasks/multinormal.py:106-119). -/
noncomputable def taskMultinormal2pair (R : JaxRandom Key) (dimX dimY : ℤ) (strength : ℝ) : Except Err (Sampler Key) :=
  taskMultinormalSparse R dimX dimY 2 strength

/-- The sampler of `task_student_identity` (/repo/src/bmi/benchmark/tasks/student.py:9-30). -/
noncomputable def taskStudentIdentity (R : JaxRandom Key) (N : NpRandom State) (dimX dimY : ℤ) (df : ℝ) :
    Except Err (StudentT State) :=
  if dimX + dimY < 0 then .error .valueError
  else splitStudentT R N dimX dimY df
    (rowsOf fun i j : Fin (dimX + dimY).toNat => if i = j then 1 else 0) none

/-- The sampler of `task_student_dense` (/repo/src/bmi/benchmark/tasks/student.py:33-58). -/
noncomputable def taskStudentDense (R : JaxRandom Key) (N : NpRandom State) (dimX dimY : ℤ) (df offDiag : ℝ) :
    Except Err (StudentT State) := do
  let dispersion ← denseMatrix dimX dimY offDiag
  splitStudentT R N dimX dimY df dispersion none

/-- The sampler of `task_student_sparse` (/repo/src/bmi/benchmark/tasks/student.py:61-97). -/
noncomputable def taskStudentSparse (R : JaxRandom Key) (N : NpRandom State) (dimX dimY : ℤ) (df : ℝ) (nInteracting : ℤ)
    (strength : ℝ) : Except Err (StudentT State) := do
  let params ← gaussianLVM dimX dimY nInteracting 0 strength 1 none 0 none strength none
  let correlation ← params.correlation
  splitStudentT R N dimX dimY df (rowsOf correlation) none

/-- The sampler of `task_student_2pair` (/repo/src/bmi/benchmark/tasks/student.py:100-115). -/
noncomputable def taskStudent2pair (R : JaxRandom Key) (N : NpRandom State) (dimX dimY : ℤ) (df strength : ℝ) :
    Except Err (StudentT State) :=
  taskStudentSparse R N dimX dimY df 2 strength

end BMI.Student
