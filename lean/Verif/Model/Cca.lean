import Verif.Model.Basic
import Mathlib.Analysis.SpecialFunctions.Log.ENNRealLog
import Mathlib.Analysis.SpecialFunctions.Sqrt
import Mathlib.Data.EReal.Operations

/-!
Model of /repo/src/bmi/estimators/correlation.py.

Numbers are exact; a possibly infinite or undefined result is an `Option EReal` with `none` for NaN.  Arrays have two
dimensions.  scikit-learn's `CCA(...).fit_transform` is a parameter that returns the lists of columns of the two score
arrays.
-/

namespace BMI.Cca

variable {n p q : ℕ}

/-- Mean of a column (inside `np.corrcoef`, /repo/src/bmi/estimators/correlation.py:9). -/
noncomputable def average (v : Fin n → ℝ) : ℝ := (∑ s, v s) / n

/-- An entry of the covariance matrix with divisor `n - 1` (inside `np.corrcoef`,
/repo/src/bmi/estimators/correlation.py:9). -/
noncomputable def cov (v w : Fin n → ℝ) : ℝ := (∑ s, (v s - average v) * (w s - average w)) / (n - 1)

/-- `corr` (/repo/src/bmi/estimators/correlation.py:8-9): `np.corrcoef` divides by both standard deviations and clips
to `[-1, 1]`; for a constant column, or a single point, the result is NaN. -/
noncomputable def corr (v w : Fin n → ℝ) : Option ℝ :=
  if n < 2 ∨ cov v v = 0 ∨ cov w w = 0 then none
  else some (max (-1) (min 1 (cov v w / √(cov v v) / √(cov w w))))

/-- `mi_gauss` (/repo/src/bmi/estimators/correlation.py:12-13) for a correlation between -1 and 1. -/
noncomputable def miGauss (r : ℝ) : EReal := ((-0.5 : ℝ) : EReal) * ENNReal.log (ENNReal.ofReal (1 - r ^ 2))

/-- The fit: `CCA(n_components=k, scale=scale).fit_transform(x, y)`
(/repo/src/bmi/estimators/correlation.py:24), third-party. -/
abbrev Fit (n p q : ℕ) : Type :=
  ℕ → Bool → (Fin n → Fin p → ℝ) → (Fin n → Fin q → ℝ) → Except Err (List (Fin n → ℝ) × List (Fin n → ℝ))

/-- `sum` of a list of floats (/repo/src/bmi/estimators/correlation.py:28). -/
noncomputable def total (l : List (Option EReal)) : Option EReal :=
  l.foldl (fun a b => a.bind fun a => b.map fun b => a + b) (some 0)

/-- `CCAMutualInformationEstimator.estimate` (/repo/src/bmi/estimators/correlation.py:20-28). -/
noncomputable def estimate (fit : Fit n p q) (scale : Bool) (x : Fin n → Fin p → ℝ) (y : Fin n → Fin q → ℝ) :
    Except Err (Option EReal) := do
  let nComponents := min p q
  let (xNew, yNew) ← fit nComponents scale x y
  if yNew.length ≠ xNew.length then .error .assertionError
  else .ok (total ((List.zipWith corr xNew yNew).map fun r => r.map miGauss))

end BMI.Cca
