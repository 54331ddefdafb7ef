import Verif.Model.Losses
import Verif.Model.NeuralEstimator

/-!
Model of the constructors of `InfoNCEEstimator`, `NWJEstimator` and `DonskerVaradhanEstimator`
(/repo/src/bmi/estimators/neural/_estimators.py:190-307): which objective is used for the training and which one for the
tests.

The objectives are computed in extended reals (Losses.lean).  As floats they are numbers, or NaN: on a single pair `nwj`
and `donsker_varadhan` subtract `log(0)` from `log(0)`, see `asFloat`.  The critics (`_mlp_init`, lines 183-187) are part of
the library as before.
-/

namespace BMI.NeuralEstimator

open BMI.Training BMI.Mine

variable {Key Θ O : Type} [NormedAddCommGroup Θ] [NormedSpace ℝ Θ]

/-- The objectives with a class of their own (/repo/src/bmi/estimators/neural/_estimators.py:190,230,270). -/
inductive Objective where
  | infonce
  | nwj
  | donskerVaradhan

/-- `mi_formula_name` (/repo/src/bmi/estimators/neural/_estimators.py:215,255,295). -/
def Objective.name : Objective → String
  | .infonce => "InfoNCE"
  | .nwj => "NWJ"
  | .donskerVaradhan => "Donsker-Varadhan"

/-- Least number of pairs for which no `log(0)` is subtracted: `nwj` and `donsker_varadhan` average over the pairs off the
diagonal (/repo/src/bmi/estimators/neural/_backend_linear_memory.py:46-48, _backend_quadratic_memory.py:40-42). -/
def Objective.least : Objective → ℕ
  | .infonce => 1
  | .nwj => 2
  | .donskerVaradhan => 2

open Classical in
/-- The float of an objective evaluated on some pairs: NaN if `-inf - (-inf)` was computed on the way
(/repo/src/bmi/estimators/neural/_backend_linear_memory.py:48, _backend_quadratic_memory.py:42). -/
noncomputable def asFloat (least n : ℕ) (v : EReal) : Fl ℝ :=
  if n < least ∨ v = ⊤ ∨ v = ⊥ then .nan else .num v.toReal

/-- `_backend_linear_memory.infonce`, `.nwj`, `.donsker_varadhan`
(/repo/src/bmi/estimators/neural/_estimators.py:207,218,247,258,287,296). -/
noncomputable def linearFormula (o : Objective) : Formula Point Point := fun f xs ys =>
  asFloat o.least xs.length (match o with
    | .infonce => Neural.Linear.infonce f xs ys
    | .nwj => Neural.Linear.nwj f xs ys
    | .donskerVaradhan => Neural.Linear.donskerVaradhan f xs ys)

/-- `_backend_quadratic_memory.infonce`, `.nwj`, `.donsker_varadhan`
(/repo/src/bmi/estimators/neural/_estimators.py:205,245,285). -/
noncomputable def quadraticFormula (o : Objective) : Formula Point Point := fun f xs ys =>
  asFloat o.least xs.length (match o with
    | .infonce => Neural.Quadratic.infonce f xs ys
    | .nwj => Neural.Quadratic.nwj f xs ys
    | .donskerVaradhan => Neural.Quadratic.donskerVaradhan f xs ys)

/-- The choice of the objective for the training (/repo/src/bmi/estimators/neural/_estimators.py:204-209,244-249,284-289). -/
noncomputable def trainFormula (o : Objective) (backend : String) : Except Err (Formula Point Point) :=
  if backend = "quadratic" then .ok (quadraticFormula o)
  else if backend = "linear" then .ok (linearFormula o)
  else .error .valueError

/-- One of the three estimators (/repo/src/bmi/estimators/neural/_estimators.py:89-109). -/
structure Named (Θ : Type) where
  formulaName : String
  formula : Formula Point Point
  formulaTest : Formula Point Point
  base : Estimator Θ

/-- `InfoNCEEstimator(...)`, `NWJEstimator(...)`, `DonskerVaradhanEstimator(...)`
(/repo/src/bmi/estimators/neural/_estimators.py:190-228,230-268,270-307). -/
noncomputable def mkNamed (o : Objective) (p : Params) (backend : String := "quadratic") : Except Err (Named Θ) := do
  let formula ← trainFormula o backend
  let base ← mk p
  .ok ⟨o.name, formula, linearFormula o, base⟩

/-- `estimate_with_info` of such an estimator (/repo/src/bmi/estimators/neural/_estimators.py:128-173): the result and the
object afterwards. -/
noncomputable def Named.estimateWithInfo (lib : Lib Key Θ O) (ε : ℝ) (e : Named Θ) (x y : PSpace.Mat) :
    Except Err (Result × Named Θ) := do
  let (res, base) ← NeuralEstimator.estimateWithInfo lib ε e.formula e.formulaTest e.base x y
  .ok (res, { e with base := base })

/-- `estimate` (/repo/src/bmi/estimators/neural/_estimators.py:175-176). -/
noncomputable def Named.estimate (lib : Lib Key Θ O) (ε : ℝ) (e : Named Θ) (x y : PSpace.Mat) : Except Err (Fl ℝ) := do
  let (res, _) ← e.estimateWithInfo lib ε x y
  .ok res.mi

end BMI.NeuralEstimator
