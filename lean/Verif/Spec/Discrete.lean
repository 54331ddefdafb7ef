import Verif.Model.Discrete
import Verif.Spec.Bmm
import Mathlib.MeasureTheory.Measure.Lebesgue.Basic

/-! Specification of the example with a binary variable. -/

namespace BMI.Discrete

open MeasureTheory BMI.Bmm

/-- A bit as a vector of length one. -/
def bit (b : Bool) : Fin 1 → ℝ := fun _ => if b then 1 else 0

/-- Counting measure on the two bits. -/
noncomputable def bits : Measure (Fin 1 → ℝ) := Measure.dirac (bit false) + Measure.dirac (bit true)

/-- The law of a bit that is one with probability `p`. -/
noncomputable def bernoulliLaw (p : ℝ) : Measure (Fin 1 → ℝ) :=
  ENNReal.ofReal (1 - p) • Measure.dirac (bit false) + ENNReal.ofReal p • Measure.dirac (bit true)

/-- Independent uniform numbers. -/
def IdealUniform {Key : Type} [MeasurableSpace Key] (uniform : Key → (n : ℕ) → Fin n → ℝ) (κ : Measure Key) : Prop :=
  ∀ n, Measurable (fun k => uniform k n) ∧
    κ.map (fun k => uniform k n) = Measure.pi fun _ => (volume : Measure ℝ).restrict (Set.Icc 0 1)

/-- How much a bit of probability `t` tells apart from a bit of probability `q`. -/
noncomputable def binaryKl (t q : ℝ) : ℝ := t * Real.log (t / q) + (1 - t) * Real.log ((1 - t) / (1 - q))

end BMI.Discrete
