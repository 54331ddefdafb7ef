import Verif.Spec.Kde
import Mathlib.MeasureTheory.Integral.Bochner.Basic
import Mathlib.MeasureTheory.Measure.Prod
import Mathlib.Probability.Moments.Variance
import Mathlib.LinearAlgebra.Matrix.NonsingularInverse
import Mathlib.Analysis.SpecialFunctions.Log.Basic
import Mathlib.Analysis.Real.Pi.Bounds

/-! What kernel densities of a fixed width see of a law. -/

namespace BMI.Kde.Spec

open MeasureTheory

/-- The density at `u` of a law smoothed by kernels of width `h`. -/
noncomputable def smooth {d : ℕ} (K : ℝ → ℝ) (z h : ℝ) (P : Measure (Fin d → ℝ)) (u : Fin d → ℝ) : ℝ :=
  ∫ v, K (dist (WithLp.toLp 2 u : EuclideanSpace ℝ (Fin d)) (WithLp.toLp 2 v) / h) / (z * h ^ d) ∂P

/-- Minus the mean logarithm of the smoothed density under the law itself. -/
noncomputable def crossEntropy {d : ℕ} (K : ℝ → ℝ) (z h : ℝ) (P : Measure (Fin d → ℝ)) : ℝ := -∫ u, Real.log (smooth K z h P u) ∂P

/-- The combination for a pair of vectors. -/
noncomputable def smoothInfo {dx dy : ℕ} (Kx Ky Kxy : ℝ → ℝ) (zx zy zxy hx hy hxy : ℝ) (P : Measure ((Fin dx → ℝ) × (Fin dy → ℝ))) : ℝ :=
  crossEntropy Kx zx hx P.fst + crossEntropy Ky zy hy P.snd
    - crossEntropy Kxy zxy hxy (P.map fun p => (Fin.append p.1 p.2 : Fin (dx + dy) → ℝ))

/-- The law of a pair of vectors, each component in units of its standard deviation. -/
noncomputable def unitLaw {dx dy : ℕ} (P : Measure ((Fin dx → ℝ) × (Fin dy → ℝ))) : Measure ((Fin dx → ℝ) × (Fin dy → ℝ)) :=
  P.map fun p => (fun c => p.1 c / Real.sqrt (ProbabilityTheory.variance (fun q => q.1 c) P),
    fun c => p.2 c / Real.sqrt (ProbabilityTheory.variance (fun q => q.2 c) P))

/-- The correlation matrix. -/
noncomputable def correlation {d : ℕ} (S : Matrix (Fin d) (Fin d) ℝ) : Matrix (Fin d) (Fin d) ℝ :=
  fun i j => S i j / (Real.sqrt (S i i) * Real.sqrt (S j j))

/-- The number for a normal law with covariance `S`, smoothed by the normal density with standard deviation `h` in all directions. -/
noncomputable def normalEntropy {d : ℕ} (S : Matrix (Fin d) (Fin d) ℝ) (h : ℝ) : ℝ :=
  (Real.log (S + h ^ 2 • (1 : Matrix (Fin d) (Fin d) ℝ)).det + ((S + h ^ 2 • (1 : Matrix (Fin d) (Fin d) ℝ))⁻¹ * S).trace
    + d * Real.log (2 * Real.pi)) / 2

/-- The combination for the two parts of a normal vector. -/
noncomputable def normalInfo {dx dy : ℕ} (S : Matrix (Fin (dx + dy)) (Fin (dx + dy)) ℝ) (hx hy hxy : ℝ) : ℝ :=
  normalEntropy (S.submatrix (Fin.castAdd dy) (Fin.castAdd dy)) hx + normalEntropy (S.submatrix (Fin.natAdd dx) (Fin.natAdd dx)) hy
    - normalEntropy S hxy

end BMI.Kde.Spec
