import Mathlib.Data.Matrix.Mul
import Mathlib.Data.Real.Basic

/-! Mean and covariance of a mixture. -/

namespace BMI.Cca.Spec

variable {m d : ℕ}

/-- The mean of a mixture: the weighted mean of the means. -/
def mixtureMean (p : Fin m → ℝ) (mean : Fin m → Fin d → ℝ) (i : Fin d) : ℝ := ∑ j, p j * mean j i

/-- The covariance of a mixture: within the components, and between their means. -/
def mixtureCov (p : Fin m → ℝ) (mean : Fin m → Fin d → ℝ) (S : Fin m → Matrix (Fin d) (Fin d) ℝ) : Matrix (Fin d) (Fin d) ℝ :=
  Matrix.of fun i k => ∑ j, p j * (S j i k + (mean j i - mixtureMean p mean i) * (mean j k - mixtureMean p mean k))

/-- The covariance of a component: of a normal law its matrix, of a Student-t law `ν / (ν - 2)` times its matrix. -/
noncomputable def spread {d : ℕ} (S : Matrix (Fin d) (Fin d) ℝ) : Option ℝ → Matrix (Fin d) (Fin d) ℝ
  | none => S
  | some ν => (ν / (ν - 2)) • S

end BMI.Cca.Spec
