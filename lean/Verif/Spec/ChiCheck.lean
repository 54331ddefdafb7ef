import Verif.Model.ChiCheck
import Verif.Spec.MutualInfo
import Verif.Spec.MatrixUtils
import Mathlib.Probability.Distributions.Gaussian.Real
import Mathlib.Probability.Moments.Variance

/-! Specification for C80: what a panel of the script is to show. -/

namespace BMI.ChiCheck

open MeasureTheory ProbabilityTheory BMI.Samplers

variable {Key : Type} [MeasurableSpace Key]

/-- The law of `mi + ∑ ρᵢ/2 (Uᵢ² - Vᵢ²)` for independent standard normal numbers `Uᵢ`, `Vᵢ`. -/
noncomputable def combinationLaw (mi : ℝ) (rho : List ℝ) : Measure ℝ :=
  ((Measure.pi fun _ : Fin rho.length => gaussianReal 0 1).prod (Measure.pi fun _ : Fin rho.length => gaussianReal 0 1)).map
    fun w => mi + ∑ i, rho[i] / 2 * (w.1 i ^ 2 - w.2 i ^ 2)

/-- Both histograms show `n` independent draws of one law; the draws of one histogram are independent of those of the other.
The line is at the mean of the law, the strip is one standard deviation to both sides, the first number of the title is the variance,
the second one estimates it from the first histogram; its mean value is `(n - 1) / n` times the variance. -/
structure ShowsLaw (n : ℕ) (κ : Measure Key) (plot : JaxRandom Key → Except Err Panel) (law : Measure ℝ) : Prop where
  finite : MemLp id 2 law
  draws : ∃ d : Key → (Fin n → ℝ) × (Fin n → ℝ), Measurable d ∧
    κ.map d = (Measure.pi fun _ => law).prod (Measure.pi fun _ => law) ∧
    ∃ v : (Fin n → ℝ) → ℝ, Integrable v (Measure.pi fun _ => law) ∧
      ∫ w, v w ∂(Measure.pi fun _ => law) = ((n : ℝ) - 1) / n * Var[id; law] ∧
      ∀ R : JaxRandom Key, ∃ p, plot R = .ok p ∧ p.profile = List.ofFn (d (R.prngKey 21)).1 ∧ p.chi2Profile = List.ofFn (d (R.prngKey 21)).2 ∧
        p.varAnalytic = Var[id; law] ∧ p.varEmpirical = v (d (R.prngKey 21)).1 ∧ p.line = ∫ t, t ∂law ∧
        p.span = (∫ t, t ∂law - √Var[id; law], ∫ t, t ∂law + √Var[id; law]) ∧
        p.bins = List.ofFn fun i : Fin 21 => -2 + 0.3 * (i : ℝ)

end BMI.ChiCheck
