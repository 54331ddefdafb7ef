import Verif.Spec.IdealRandom
import Verif.Model.Student
import Mathlib.Probability.Distributions.Gamma

/-! Specification: the multivariate Student-t law. -/

namespace BMI.Samplers

open MeasureTheory ProbabilityTheory

/-- The χ² law with `ν` degrees of freedom. -/
noncomputable def chiSquared (ν : ℝ) : Measure ℝ := gammaMeasure (ν / 2) (1 / 2)

/-- The multivariate Student-t law with location `loc`, dispersion `S` and `ν` degrees of freedom: the law of
`loc + Z / √(W / ν)` with independent `Z ~ N(0, S)` and `W ~ χ²(ν)`. -/
noncomputable def studentLaw {d : ℕ} (loc : Fin d → ℝ) (S : Matrix (Fin d) (Fin d) ℝ) (ν : ℝ) : Measure (Fin d → ℝ) :=
  ((chiSquared ν).prod (normalLaw 0 S)).map fun p => loc + (√(p.1 / ν))⁻¹ • p.2

open BMI.Student in
/-- What is assumed of SciPy: with a random state of law `κ`, `stats.multivariate_t.rvs` draws independent rows. -/
def IdealStudent {State : Type} [MeasurableSpace State] (N : NpRandom State) (κ : Measure State) : Prop :=
  IsProbabilityMeasure κ ∧ ∀ n d loc S ν, S.PosDef → 0 < ν → Measurable (fun s => N.multivariateT s n d loc S ν) ∧
    κ.map (fun s => N.multivariateT s n d loc S ν) = Measure.pi fun _ => studentLaw loc S ν

end BMI.Samplers
