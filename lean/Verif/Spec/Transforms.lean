import Mathlib.Analysis.SpecialFunctions.Trigonometric.Basic
import Mathlib.LinearAlgebra.Matrix.Notation

/-! Specification of the rotations used by the transforms. -/

namespace BMI.Samplers

/-- The squared Euclidean norm. -/
def sumSq {n : ℕ} (x : Fin n → ℝ) : ℝ := ∑ i, x i ^ 2

/-- Turn the coordinates `i` and `j` by the angle `θ`, from `i` towards `j`, and keep the others. -/
noncomputable def turn {n : ℕ} (i j : Fin n) (θ : ℝ) (x : Fin n → ℝ) : Fin n → ℝ := fun k =>
  if k = i then Real.cos θ * x i - Real.sin θ * x j
  else if k = j then Real.sin θ * x i + Real.cos θ * x j
  else x k

end BMI.Samplers
