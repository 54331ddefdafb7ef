import Mathlib.Data.Real.Basic
import Mathlib.LinearAlgebra.Matrix.Notation
import Mathlib.Data.Fin.Tuple.Basic

/-! Specification of correlation matrices. -/

namespace BMI.MatrixUtils

/-- Unit variances, uncorrelated coordinates of X, uncorrelated coordinates of Y, and `cov(Xᵢ, Yⱼ) = ρᵢ` for `i = j`, zero
otherwise. -/
structure IsCanonical {dx dy : ℕ} (ρ : Fin dx → ℝ) (m : Matrix (Fin (dx + dy)) (Fin (dx + dy)) ℝ) : Prop where
  xx : ∀ i j : Fin dx, m (Fin.castAdd dy i) (Fin.castAdd dy j) = if i = j then 1 else 0
  yy : ∀ i j : Fin dy, m (Fin.natAdd dx i) (Fin.natAdd dx j) = if i = j then 1 else 0
  xy : ∀ (i : Fin dx) (j : Fin dy), m (Fin.castAdd dy i) (Fin.natAdd dx j) = if (i : ℕ) = j then ρ i else 0
  yx : ∀ (i : Fin dx) (j : Fin dy), m (Fin.natAdd dx j) (Fin.castAdd dy i) = if (i : ℕ) = j then ρ i else 0

/-- Unit variances, correlation `cx` between coordinates of X, `cy` between coordinates of Y, and `c` between `Xᵢ` and `Yᵢ`
for `i < k`; no other correlation between X and Y. -/
structure IsParametrised {dx dy : ℕ} (k : ℕ) (c cx cy : ℝ) (m : Matrix (Fin (dx + dy)) (Fin (dx + dy)) ℝ) : Prop where
  xx : ∀ i j : Fin dx, m (Fin.castAdd dy i) (Fin.castAdd dy j) = if i = j then 1 else cx
  yy : ∀ i j : Fin dy, m (Fin.natAdd dx i) (Fin.natAdd dx j) = if i = j then 1 else cy
  xy : ∀ (i : Fin dx) (j : Fin dy), m (Fin.castAdd dy i) (Fin.natAdd dx j) = if (i : ℕ) = j ∧ (i : ℕ) < k then c else 0
  yx : ∀ (i : Fin dx) (j : Fin dy), m (Fin.natAdd dx j) (Fin.castAdd dy i) = if (i : ℕ) = j ∧ (i : ℕ) < k then c else 0

end BMI.MatrixUtils
