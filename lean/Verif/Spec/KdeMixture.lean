import Verif.Spec.KdeRule
import Verif.Spec.MixtureTasks
import Verif.Spec.Consistency
import Verif.Props.KdeRule

/-! What it means that the kernel density estimator finds a number on a sampler, and components of mixtures. -/

namespace BMI.Kde.Spec

open MeasureTheory BMI.Samplers BMI.Student BMI.Consistency

/-- Every kernel density estimator with bandwidths by Scott's or Silverman's rule (with standardisation only if `moments` holds)
converges on samples from `s` to `v`, in probability. -/
def FindsNumber {Key : Type} [MeasurableSpace Key] (κ : Measure Key) (s : Sampler Key) (dx dy : ℕ) (moments : Prop) (v : ℝ) : Prop :=
  ∀ E : Estimator, (E.standardize = true → moments) → ByRule E.kdeX.bandwidth → ByRule E.kdeY.bandwidth → ByRule E.kdeXY.bandwidth →
    ConvergesTo κ s (Gives (dx := dx) (dy := dy) mass 0 E) v

/-- The joint law of a component: normal, or Student-t with the given degrees of freedom. -/
noncomputable def ingredient (dx dy : ℕ) (mean : Fin (dx + dy) → ℝ) (cov : Matrix (Fin (dx + dy)) (Fin (dx + dy)) ℝ) :
    Option ℝ → Measure ((Fin dx → ℝ) × (Fin dy → ℝ))
  | none => (normalLaw mean cov).map (halves dx dy)
  | some df => (studentLaw mean cov df).map (halves dx dy)

end BMI.Kde.Spec
