import Verif.Lemmas.GaussianDensity
import Verif.Lemmas.StudentCov
import Mathlib.MeasureTheory.Group.Convolution

/-! Sums of independent normal vectors; normal laws smoothed by a density. -/

namespace BMI.Samplers

open MeasureTheory ProbabilityTheory Matrix
open scoped MatrixOrder Matrix.Norms.L2Operator

variable {d : ℕ}

instance normalLaw_prob (m : Fin d → ℝ) (S : Matrix (Fin d) (Fin d) ℝ) : IsProbabilityMeasure (normalLaw m S) := by
  rw [stdNormal_map]
  have hc : Continuous fun w : Fin d → ℝ => m + (CFC.sqrt S).mulVec w := by fun_prop
  exact Measure.isProbabilityMeasure_map hc.measurable.aemeasurable

theorem normalLaw_conv (m m' : Fin d → ℝ) {S T : Matrix (Fin d) (Fin d) ℝ} (hS : S.PosSemidef) (hT : T.PosSemidef) :
    (normalLaw m S) ∗ (normalLaw m' T) = normalLaw (m + m') (S + T) := by
  refine Measure.ext_of_charFunDual (funext fun L => ?_)
  rw [charFunDual_conv, charFunDual_normalLaw _ hS, charFunDual_normalLaw _ hT, charFunDual_normalLaw _ (hS.add hT), ← Complex.exp_add]
  congr 1
  rw [dotProduct_add, add_mulVec, dotProduct_add]
  push_cast
  ring

/-- The sum of a vector and an independent one with a density has a density. -/
theorem conv_density (Q : Measure (Fin d → ℝ)) [SFinite Q] {g : (Fin d → ℝ) → ENNReal} (hg : Measurable g) [SFinite ((volume : Measure (Fin d → ℝ)).withDensity g)] :
    Q ∗ (volume.withDensity g) = volume.withDensity fun u => ∫⁻ v, g (u - v) ∂Q := by
  refine Measure.ext_of_lintegral _ fun φ hφ => ?_
  have m1 : Measurable fun p : (Fin d → ℝ) × (Fin d → ℝ) => g (p.1 - p.2) := hg.comp (measurable_fst.sub measurable_snd)
  rw [Measure.lintegral_conv hφ, lintegral_withDensity_eq_lintegral_mul _ m1.lintegral_prod_right' hφ]
  have e : ∀ v, ∫⁻ n, φ (v + n) ∂(volume.withDensity g) = ∫⁻ u, g (u - v) * φ u := by
    intro v
    have hv : Measurable fun n => φ (v + n) := hφ.comp (measurable_const_add v)
    rw [lintegral_withDensity_eq_lintegral_mul _ hg hv]
    have := lintegral_sub_right_eq_self (μ := (volume : Measure (Fin d → ℝ))) (fun n => (g * fun n => φ (v + n)) n) v
    rw [← this]
    refine lintegral_congr fun u => ?_
    simp
  simp only [e]
  rw [lintegral_lintegral_swap]
  · refine lintegral_congr fun u => ?_
    have hu : Measurable fun v => g (u - v) := hg.comp (measurable_const.sub measurable_id)
    rw [Pi.mul_apply, lintegral_mul_const _ hu]
  · exact ((hg.comp (measurable_snd.sub measurable_fst)).mul (hφ.comp measurable_snd)).aemeasurable

/-- Mean of the quadratic form of one covariance under the normal law with another. -/
theorem integral_quad_other (m : Fin d → ℝ) {S : Matrix (Fin d) (Fin d) ℝ} (hS : S.PosSemidef) (T : Matrix (Fin d) (Fin d) ℝ) :
    Integrable (quad m T) (normalLaw m S) ∧ ∫ z, quad m T z ∂(normalLaw m S) = (T⁻¹ * S).trace := by
  have hm : normalLaw m S = (normalLaw 0 S).map fun x => m + (1 : Matrix (Fin d) (Fin d) ℝ).mulVec x := by
    rw [normalLaw_map _ hS]
    simp
  have hc : Continuous fun x : Fin d → ℝ => m + (1 : Matrix (Fin d) (Fin d) ℝ).mulVec x := by fun_prop
  have hq : ∀ x : Fin d → ℝ, quad m T (m + (1 : Matrix (Fin d) (Fin d) ℝ).mulVec x) = ∑ i, ∑ j, T⁻¹ i j * (x i * x j) := by
    intro x
    unfold quad
    simp only [one_mulVec, add_sub_cancel_left, dotProduct, mulVec, Finset.mul_sum]
    refine Finset.sum_congr rfl fun i _ => Finset.sum_congr rfl fun j _ => by ring
  have hi : ∀ i j, Integrable (fun x : Fin d → ℝ => T⁻¹ i j * (x i * x j)) (normalLaw 0 S) := fun i j =>
    ((normalLaw_memLp (S := S) i).integrable_mul (normalLaw_memLp (S := S) j)).const_mul _
  have hI : Integrable (fun x : Fin d → ℝ => ∑ i, ∑ j, T⁻¹ i j * (x i * x j)) (normalLaw 0 S) :=
    integrable_finsetSum _ fun i _ => integrable_finsetSum _ fun j _ => hi i j
  constructor
  · rw [hm, integrable_map_measure (continuous_quad m T).aestronglyMeasurable hc.measurable.aemeasurable]
    exact hI.congr (.of_forall fun x => (hq x).symm)
  · rw [hm, integral_map hc.measurable.aemeasurable (continuous_quad m T).aestronglyMeasurable]
    simp only [hq]
    rw [integral_finsetSum _ fun i _ => integrable_finsetSum _ fun j _ => hi i j]
    simp only [trace, diag, mul_apply]
    refine Finset.sum_congr rfl fun i _ => ?_
    rw [integral_finsetSum _ fun j _ => hi i j]
    refine Finset.sum_congr rfl fun j _ => ?_
    rw [integral_const_mul, normalLaw_integral_mul hS]
    have := congrFun (congrFun hS.isHermitian j) i
    simp only [conjTranspose_apply, star_trivial] at this
    rw [this]

/-- Almost everywhere, a normal law smoothed by a normal density has the density of the normal law with the sum of covariances. -/
theorem smooth_normal (m : Fin d → ℝ) {S T : Matrix (Fin d) (Fin d) ℝ} (hS : S.PosDef) (hT : T.PosDef) :
    ∀ᵐ u ∂(normalLaw m S), ∫ v, Real.exp (logDensity 0 T (u - v)) ∂(normalLaw m S) = Real.exp (logDensity m (S + T) u) := by
  have hg : Measurable fun z : Fin d → ℝ => ENNReal.ofReal (Real.exp (logDensity 0 T z)) :=
    (continuous_logDensity 0 T).measurable.exp.ennreal_ofReal
  have h1 := normalLaw_conv m 0 hS.posSemidef hT.posSemidef
  have h2 := conv_density (normalLaw m S) hg
  have m1 : Measurable fun p : (Fin d → ℝ) × (Fin d → ℝ) => ENNReal.ofReal (Real.exp (logDensity 0 T (p.1 - p.2))) :=
    hg.comp (measurable_fst.sub measurable_snd)
  rw [← normalLaw_density 0 hT, h1, add_zero, normalLaw_density m (hS.add hT),
    withDensity_eq_iff_of_sigmaFinite (continuous_logDensity m (S + T)).measurable.exp.ennreal_ofReal.aemeasurable
      m1.lintegral_prod_right'.aemeasurable] at h2
  have h3 : normalLaw m S ≪ volume := by rw [normalLaw_density m hS]; exact withDensity_absolutelyContinuous _ _
  filter_upwards [h3.ae_le h2] with u hu
  have m2 : Measurable fun v : Fin d → ℝ => Real.exp (logDensity 0 T (u - v)) :=
    ((continuous_logDensity 0 T).measurable.comp (measurable_const.sub measurable_id)).exp
  rw [integral_eq_lintegral_of_nonneg_ae (.of_forall fun v => (Real.exp_pos _).le) m2.aestronglyMeasurable, ← hu,
    ENNReal.toReal_ofReal (Real.exp_pos _).le]

end BMI.Samplers
