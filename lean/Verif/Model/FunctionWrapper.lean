import Verif.Model.RunEstimator

/-!
Model of `FunctionalEstimator` (/repo/src/bmi/estimators/function_wrapper.py) and of the default `estimate_with_info` of the interface
(/repo/src/bmi/interface.py:59-61).
-/

namespace BMI.Wrapper

open BMI.Run

/-- What calling the wrapped function does (/repo/src/bmi/estimators/function_wrapper.py:36): return something pydantic takes for a
`float` (with this number), return something else, raise an `Exception`, or abort the interpreter. -/
inductive Called (F : Type) where
  | number (v : F)
  | other
  | exc (msg : String) (output : Option String)
  | abort

/-- Parameters: those given, or none (`_EmptyParams`) (/repo/src/bmi/estimators/function_wrapper.py:9-10,30). -/
inductive Params (P : Type) where
  | given (p : P)
  | empty

/-- A `FunctionalEstimator` (/repo/src/bmi/estimators/function_wrapper.py:13-30). -/
structure Functional (F P Row : Type) where
  func : List Row → List Row → Called F
  params : Params P

variable {F P V Row : Type}

/-- `FunctionalEstimator(func, params=params)` (/repo/src/bmi/estimators/function_wrapper.py:16-30). -/
def mkFunctional (func : List Row → List Row → Called F) (params : Option P := none) : Functional F P Row :=
  ⟨func, match params with | some p => .given p | none => .empty⟩

/-- `estimate` (/repo/src/bmi/estimators/function_wrapper.py:32-36); arrays are given, so that `np.asarray` changes nothing. -/
def Functional.estimate (e : Functional F P Row) (x y : List Row) : Called F := e.func x y

/-- `EstimateResult(mi_estimate=self.estimate(x, y))` (/repo/src/bmi/interface.py:59-61); `invalid` is the message of the
`ValidationError` raised if the estimate is no float. -/
def Functional.estimateWithInfo (invalid : String) (e : Functional F P Row) (x y : List Row) : Outcome F V :=
  match e.estimate x y with
  | .number v => .ret ⟨v, none, []⟩
  | .other => .exc invalid none
  | .exc msg out => .exc msg out
  | .abort => .abort

/-- `estimate` of the estimators which implement `estimate_with_info` instead
(/repo/src/bmi/estimators/neural/_estimators.py:175-176, /repo/src/bmi/estimators/neural/_mine_estimator.py:365-366). -/
def estimateOf (est : List Row → List Row → Outcome F V) (x y : List Row) : Called F :=
  match est x y with
  | .ret r => .number r.mi
  | .exc msg out => .exc msg out
  | .abort => .abort

end BMI.Wrapper
