import Verif.Spec.Kde
import Verif.Spec.MutualInfo
import Mathlib.MeasureTheory.Integral.Bochner.Basic
import Mathlib.MeasureTheory.Measure.Lebesgue.Basic
import Mathlib.MeasureTheory.Measure.Prod

/-! Which normalisation of the kernels is meant, and laws with a density, in terms of probabilities of sets. -/

namespace BMI.Kde.Spec

open MeasureTheory

/-- The integral of a kernel of width one over the whole space. -/
noncomputable def mass (k : Kernel) (d : ℕ) : ℝ := ∫ w : Fin d → ℝ, shape k ‖(WithLp.toLp 2 w : EuclideanSpace ℝ (Fin d))‖

/-- A law of vectors with a density. The density and the vectors may be unbounded, but the mean of the logarithm of the density is not
infinitely large, and the logarithms of the components have means. -/
structure Regular {d : ℕ} (Q : Measure (Fin d → ℝ)) : Prop where
  density : ∃ f : (Fin d → ℝ) → ℝ, Measurable f ∧ (∀ u, 0 ≤ f u) ∧ Q = volume.withDensity (fun u => ENNReal.ofReal (f u)) ∧
    Integrable (fun u => max 0 (Real.log (f u))) Q
  tail : ∀ c, Integrable (fun u => Real.log (1 + |u c|)) Q

/-- A law of pairs of such vectors with finite mutual information. -/
structure Spread {dx dy : ℕ} (P : Measure ((Fin dx → ℝ) × (Fin dy → ℝ))) : Prop where
  left : Regular P.fst
  right : Regular P.snd
  finite : mutualInfo P ≠ ⊤

/-- A law of pairs of vectors whose components are bounded and which gives no set more than a fixed multiple of its volume. -/
structure Boxed {dx dy : ℕ} (P : Measure ((Fin dx → ℝ) × (Fin dy → ℝ))) : Prop where
  bounded : ∃ B : ℝ, ∀ᵐ p ∂P, (∀ c, |p.1 c| ≤ B) ∧ ∀ c, |p.2 c| ≤ B
  density : ∃ M : NNReal, ∀ A : Set ((Fin dx → ℝ) × (Fin dy → ℝ)), MeasurableSet A → P A ≤ M * (volume.prod volume) A

end BMI.Kde.Spec
