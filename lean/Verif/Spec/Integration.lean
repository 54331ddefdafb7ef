import Verif.Spec.MixtureTasks
import Verif.Spec.MutualInfo

/-! Specification of the experiment on how well the bounds integrate a known pointwise mutual information. -/

namespace BMI.Integration

open MeasureTheory BMI.Samplers BMI.Bmm BMI.MixtureTasks

/-- Centres and variances of the four balls. -/
noncomputable def balls : Fin 4 → (ℝ × ℝ) × ℝ :=
  ![((-5 / 4, -5 / 4), 1), ((5 / 4, 5 / 4), 1), ((-5 / 2, 5 / 2), 1 / 5), ((5 / 2, -5 / 2), 1 / 5)]

/-- Four round balls in the plane, the first two with probability 3/10, the others with probability 1/5. -/
noncomputable def lawOfBalls : Measure ((Fin 1 → ℝ) × (Fin 1 → ℝ)) :=
  mixtureLaw ![3 / 10, 3 / 10, 1 / 5, 1 / 5] fun j : Fin 4 =>
    component 1 1 ![(balls j).1.1, (balls j).1.2] ((balls j).2 • 1)

/-- 25 independent pairs with correlation 4/5. -/
noncomputable def lawOfNormal : Measure ((Fin 25 → ℝ) × (Fin 25 → ℝ)) :=
  component 25 25 0 (Matrix.of fun p q => if p = q then 1 else if (p : ℕ) + 25 = q ∨ (q : ℕ) + 25 = p then 4 / 5 else 0)

variable {Key : Type} [MeasurableSpace Key]

/-- What the four estimates make of the pointwise mutual information of `P` with the bias `g` on `n` independent points: the
Monte Carlo average has the expectation `I + E g`; NWJ has the expectation `I + 1 + E g - E exp g`; InfoNCE has an expectation of
at most `I` and never exceeds `log n`; Donsker-Varadhan is at least NWJ. -/
structure Integrates (κ : Measure Key) {X Y : Type} [MeasurableSpace X] [MeasurableSpace Y] (P : Measure (X × Y))
    (g : X × Y → ℝ) (n : ℕ) (v : String → Key → ℝ) : Prop where
  integrable : ∀ e ∈ ["NWJ", "InfoNCE", "DV", "MC"], Integrable (v e) κ
  mc : ∫ k, v "MC" k ∂κ = (mutualInfo P).toReal + ∫ z, g z ∂P
  nwj : ∫ k, v "NWJ" k ∂κ = (mutualInfo P).toReal + 1 + ∫ z, g z ∂P - ∫ z, Real.exp (g z) ∂P
  infonce : ∫ k, v "InfoNCE" k ∂κ ≤ (mutualInfo P).toReal
  infonce_le : ∀ k, v "InfoNCE" k ≤ Real.log n
  dv_ge : ∀ k, v "NWJ" k ≤ v "DV" k

end BMI.Integration
