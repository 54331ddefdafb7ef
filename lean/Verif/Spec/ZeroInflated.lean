import Verif.Spec.IdealRandom
import Mathlib.Probability.Kernel.Composition.MeasureCompProd

/-! Specification for property C06: the zero-inflated Poissonization of an exponential variable. -/

namespace BMI.Samplers

open MeasureTheory ProbabilityTheory

theorem measurable_poissonMeasure : Measurable fun x : ℝ => poissonMeasure x.toNNReal := by
  refine Measure.measurable_of_measurable_coe _ fun s hs => ?_
  unfold poissonMeasure
  simp only [Measure.sum_apply _ hs, Measure.smul_apply, smul_eq_mul]
  refine Measurable.ennreal_tsum fun n => Measurable.mul_const (Measurable.ennreal_ofReal ?_) _
  fun_prop

/-- Given `X = x`, the second variable is `0` with probability `p` and otherwise Poisson with rate `x`. -/
noncomputable def zipKernel (p : ℝ) : Kernel ℝ ℕ where
  toFun x := ENNReal.ofReal p • Measure.dirac 0 + ENNReal.ofReal (1 - p) • poissonMeasure x.toNNReal
  measurable' := by
    refine Measure.measurable_of_measurable_coe _ fun s hs => ?_
    simp only [Measure.add_apply, Measure.smul_apply, smul_eq_mul]
    exact measurable_const.add (((Measure.measurable_coe hs).comp measurable_poissonMeasure).const_mul _)

/-- The joint law: `X` is exponential of rate one, `Y` given `X` is as above. -/
noncomputable def zipLaw (p : ℝ) : Measure (ℝ × ℕ) := expMeasure 1 ⊗ₘ zipKernel p

end BMI.Samplers
