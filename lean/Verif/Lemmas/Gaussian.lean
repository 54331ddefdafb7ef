import Verif.Spec.IdealRandom
import Verif.Lemmas.PiDensity
import Verif.Lemmas.Additive
import Mathlib.Analysis.Matrix.PosDef
import Mathlib.MeasureTheory.Measure.CharacteristicFunction.Basic

/-! Multivariate normal laws: affine images, densities, second moments. -/

namespace BMI.Samplers

open MeasureTheory ProbabilityTheory
open scoped MatrixOrder Matrix.Norms.L2Operator

/-- Independent standard normal entries. -/
noncomputable def stdNormal (d : ℕ) : Measure (Fin d → ℝ) := Measure.pi fun _ => gaussianReal 0 1

instance (d : ℕ) : IsProbabilityMeasure (stdNormal d) := by unfold stdNormal; infer_instance

theorem stdNormal_map (d : ℕ) (mean : Fin d → ℝ) (cov : Matrix (Fin d) (Fin d) ℝ) :
    normalLaw mean cov = (stdNormal d).map fun w => mean + (CFC.sqrt cov).mulVec w := by
  unfold normalLaw multivariateGaussian stdNormal
  rw [← map_pi_eq_stdGaussian, Measure.map_map (by fun_prop) (by fun_prop), Measure.map_map (by fun_prop) (by fun_prop)]
  rfl

/-- The vector representing a linear functional. -/
noncomputable def coeffs {d : ℕ} (L : StrongDual ℝ (Fin d → ℝ)) : Fin d → ℝ := fun i => L (Pi.single i 1)

theorem apply_eq_coeffs {d : ℕ} (L : StrongDual ℝ (Fin d → ℝ)) (x : Fin d → ℝ) : L x = coeffs L ⬝ᵥ x := by
  conv_lhs => rw [← Finset.univ_sum_single x]
  rw [map_sum]
  refine Finset.sum_congr rfl fun i _ => ?_
  have : (Pi.single i (x i) : Fin d → ℝ) = x i • Pi.single i 1 := by
    rw [← Pi.single_smul]; simp
  rw [this, map_smul, smul_eq_mul, mul_comm]
  rfl

theorem charFunDual_normalLaw {d : ℕ} (mean : Fin d → ℝ) {cov : Matrix (Fin d) (Fin d) ℝ} (h : cov.PosSemidef)
    (L : StrongDual ℝ (Fin d → ℝ)) :
    charFunDual (normalLaw mean cov) L
      = Complex.exp ((coeffs L ⬝ᵥ mean : ℝ) * Complex.I - (coeffs L ⬝ᵥ cov.mulVec (coeffs L) : ℝ) / 2) := by
  have h1 := charFun_multivariateGaussian (μ := WithLp.toLp 2 mean) h (WithLp.toLp 2 (coeffs L))
  have h2 : charFunDual (normalLaw mean cov) L
      = charFun (multivariateGaussian (WithLp.toLp 2 mean) cov) (WithLp.toLp 2 (coeffs L)) := by
    unfold normalLaw
    rw [charFunDual_apply, charFun_apply, integral_map (by fun_prop) (by fun_prop)]
    congr 1
    funext x
    rw [apply_eq_coeffs]
    congr 3
  rw [h2, h1]
  congr 2
  · congr 2
    simp [PiLp.inner_apply, dotProduct, mul_comm]

/-- Affine images of normal laws are normal. -/
theorem normalLaw_map {d e : ℕ} (mean : Fin d → ℝ) {cov : Matrix (Fin d) (Fin d) ℝ} (h : cov.PosSemidef)
    (b : Fin e → ℝ) (B : Matrix (Fin e) (Fin d) ℝ) :
    (normalLaw mean cov).map (fun x => b + B.mulVec x) = normalLaw (b + B.mulVec mean) (B * cov * B.transpose) := by
  have hB : Measurable fun x : Fin d → ℝ => b + B.mulVec x := by
    have : Continuous fun x : Fin d → ℝ => b + B.mulVec x := by fun_prop
    exact this.measurable
  have i1 : IsProbabilityMeasure (normalLaw mean cov) := by
    rw [stdNormal_map]
    have : Continuous fun x : Fin d → ℝ => mean + (CFC.sqrt cov).mulVec x := by fun_prop
    exact Measure.isProbabilityMeasure_map this.measurable.aemeasurable
  have i2 : IsProbabilityMeasure (normalLaw (b + B.mulVec mean) (B * cov * B.transpose)) := by
    rw [stdNormal_map]
    have : Continuous fun x : Fin e → ℝ => (b + B.mulVec mean) + (CFC.sqrt (B * cov * B.transpose)).mulVec x := by fun_prop
    exact Measure.isProbabilityMeasure_map this.measurable.aemeasurable
  have i3 : IsProbabilityMeasure ((normalLaw mean cov).map (fun x => b + B.mulVec x)) :=
    Measure.isProbabilityMeasure_map hB.aemeasurable
  have hBc : (B * cov * B.transpose).PosSemidef := by
    have := h.mul_mul_conjTranspose_same B
    rwa [Matrix.conjTranspose_eq_transpose_of_trivial] at this
  apply Measure.ext_of_charFunDual
  funext L
  rw [charFunDual_normalLaw _ hBc, charFunDual_apply, integral_map hB.aemeasurable (by fun_prop)]
  let M : (Fin d → ℝ) →L[ℝ] (Fin e → ℝ) := LinearMap.toContinuousLinearMap (Matrix.toLin' B)
  have hc : coeffs (L.comp M) = B.transpose.mulVec (coeffs L) := by
    have : ∀ x, coeffs (L.comp M) ⬝ᵥ x = B.transpose.mulVec (coeffs L) ⬝ᵥ x := by
      intro x
      rw [← apply_eq_coeffs, Matrix.mulVec_transpose, ← Matrix.dotProduct_mulVec, ← apply_eq_coeffs]
      rfl
    exact dotProduct_eq _ _ this
  have e1 : ∀ x, Complex.exp ((L (b + B.mulVec x) : ℝ) * Complex.I)
      = Complex.exp ((L b : ℝ) * Complex.I) * Complex.exp ((L.comp M x : ℝ) * Complex.I) := by
    intro x
    rw [← Complex.exp_add, map_add]
    congr 1
    push_cast
    rw [add_mul]
    rfl
  simp only [e1]
  rw [integral_const_mul, ← charFunDual_apply, charFunDual_normalLaw mean h, hc, ← Complex.exp_add, apply_eq_coeffs]
  congr 1
  have e2 : B.transpose.mulVec (coeffs L) ⬝ᵥ mean = coeffs L ⬝ᵥ B.mulVec mean := by
    rw [Matrix.mulVec_transpose, ← Matrix.dotProduct_mulVec]
  have e3 : B.transpose.mulVec (coeffs L) ⬝ᵥ cov.mulVec (B.transpose.mulVec (coeffs L))
      = coeffs L ⬝ᵥ (B * cov * B.transpose).mulVec (coeffs L) := by
    rw [← Matrix.mulVec_mulVec, ← Matrix.mulVec_mulVec]
    conv_lhs => rw [Matrix.mulVec_transpose, ← Matrix.dotProduct_mulVec, ← Matrix.mulVec_transpose]
  rw [e2, e3, dotProduct_add]
  push_cast
  ring

end BMI.Samplers
