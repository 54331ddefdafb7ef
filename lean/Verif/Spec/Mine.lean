import Mathlib.Analysis.SpecialFunctions.Exp
import Mathlib.Algebra.BigOperators.Fin

/-! Specification vocabulary for MINE: the denominator of Equation (12) of the MINE paper on a batch, and the
exponential moving average in closed form. -/

namespace BMI.Mine.Spec

variable {X Y : Type}

/-- Average of `g` over the pairs of two lists. -/
noncomputable def avgPairs (g : X → Y → ℝ) (xs : List X) (ys : List Y) : ℝ :=
  ((xs.zip ys).map fun p => g p.1 p.2).sum / (xs.zip ys).length

/-- The denominator on one batch: average of `exp T(x, y)` over the unpaired sample. -/
noncomputable def batchDenom (T : X → Y → ℝ) (xs : List X) (ysUnpaired : List Y) : ℝ :=
  avgPairs (fun x y => Real.exp (T x y)) xs ysUnpaired

/-- Exponential moving average of `b₀, …, b_{m-1}`, started at zero: the weight of `bᵢ` is `(1-α)·α^(m-1-i)`. -/
noncomputable def ema (α : ℝ) (bs : List ℝ) : ℝ :=
  ∑ i : Fin bs.length, (1 - α) * α ^ (bs.length - 1 - i) * bs[i]

end BMI.Mine.Spec
