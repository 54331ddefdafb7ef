/-!
# Common vocabulary of the model

Python exceptions are values: every function that can raise returns `Except Err α`.
-/

namespace BMI

/-- Exception classes raised by the modelled code.  The constructor names the Python class; messages
are not modelled.  (`raise ValueError` e.g. /repo/src/bmi/utils.py:113; `assert` e.g. utils.py:38-40;
`EstimatorNotFittedException` /repo/src/bmi/estimators/base.py:4-7; pydantic validation errors e.g.
/repo/src/bmi/estimators/ksg.py:24-30, which are subclasses of `ValueError`.) -/
inductive Err where
  | valueError
  | assertionError
  | attributeError
  | zeroDivision
  | indexError
  | typeError
  | keyError
  | importError
  | notFitted
  | validationError
  | representerError
  deriving DecidableEq, Repr

end BMI
