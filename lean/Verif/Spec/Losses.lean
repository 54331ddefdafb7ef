import Mathlib.Analysis.SpecialFunctions.Log.Basic
import Mathlib.Algebra.BigOperators.Fin

/-! What the objectives of the neural estimators are, as plain formulas on `n` paired points. -/

namespace BMI.Neural.Spec

variable {X Y : Type} {n : ℕ}

/-- Average score of the pairs of the batch. -/
noncomputable def positive (f : X → Y → ℝ) (x : Fin n → X) (y : Fin n → Y) : ℝ := (∑ i, f (x i) (y i)) / n

/-- Average of `exp f` over the pairs `(x_i, y_j)` with `i ≠ j`. -/
noncomputable def negative (f : X → Y → ℝ) (x : Fin n → X) (y : Fin n → Y) : ℝ :=
  (∑ i, ∑ j, if i = j then 0 else Real.exp (f (x i) (y j))) / (n * (n - 1))

/-- The Donsker-Varadhan objective. -/
noncomputable def donskerVaradhan (f : X → Y → ℝ) (x : Fin n → X) (y : Fin n → Y) : ℝ :=
  positive f x y - Real.log (negative f x y)

/-- The NWJ objective. -/
noncomputable def nwj (f : X → Y → ℝ) (x : Fin n → X) (y : Fin n → Y) : ℝ :=
  positive f x y - Real.exp (-1) * negative f x y

/-- The InfoNCE objective: the average over the batch of the log-ratio between the score of the true partner and
the average score of all candidates. -/
noncomputable def infonce (f : X → Y → ℝ) (x : Fin n → X) (y : Fin n → Y) : ℝ :=
  (∑ i, Real.log (Real.exp (f (x i) (y i)) / ((∑ j, Real.exp (f (x i) (y j))) / n))) / n

end BMI.Neural.Spec
