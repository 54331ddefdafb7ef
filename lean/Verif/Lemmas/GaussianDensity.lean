import Verif.Lemmas.Gaussian
import Mathlib.MeasureTheory.Measure.Lebesgue.EqHaar
import Mathlib.Probability.Distributions.Gaussian.Fernique

/-! Densities of non-degenerate normal laws. -/

namespace BMI.Samplers

open MeasureTheory ProbabilityTheory
open scoped MatrixOrder Matrix.Norms.L2Operator

theorem stdNormal_density (d : ℕ) :
    stdNormal d = volume.withDensity fun x => ENNReal.ofReal
      (Real.exp (-(d * Real.log (2 * Real.pi)) / 2 - x ⬝ᵥ x / 2)) := by
  unfold stdNormal
  rw [gaussianReal_of_var_ne_zero 0 one_ne_zero]
  have hs : SigmaFinite ((volume : Measure ℝ).withDensity (gaussianPDF 0 1)) := by
    rw [← gaussianReal_of_var_ne_zero 0 one_ne_zero]
    infer_instance
  rw [pi_withDensity (fun _ : Fin d => volume) (fun _ => gaussianPDF 0 1) (fun _ => measurable_gaussianPDF 0 1), ← volume_pi]
  congr 1
  funext x
  have e : ∀ y : ℝ, gaussianPDF 0 1 y = ENNReal.ofReal (Real.exp (-Real.log (2 * Real.pi) / 2 - y * y / 2)) := by
    intro y
    unfold gaussianPDF
    congr 1
    rw [gaussianPDFReal_def]
    simp only [NNReal.coe_one, mul_one, sub_zero]
    rw [sub_eq_add_neg, Real.exp_add]
    congr 1
    · rw [neg_div, Real.exp_neg, ← Real.log_sqrt (by positivity), Real.exp_log (by positivity)]
    · congr 1
      ring
  simp only [e]
  rw [← ENNReal.ofReal_prod_of_nonneg (fun _ _ => (Real.exp_pos _).le), ← Real.exp_sum]
  congr 2
  rw [Finset.sum_sub_distrib, Finset.sum_const, ← Finset.sum_div, Finset.card_univ, Fintype.card_fin, nsmul_eq_mul]
  simp only [dotProduct]
  ring

/-- The quadratic form of a normal law. -/
noncomputable def quad {d : ℕ} (mean : Fin d → ℝ) (cov : Matrix (Fin d) (Fin d) ℝ) (z : Fin d → ℝ) : ℝ :=
  (z - mean) ⬝ᵥ cov⁻¹.mulVec (z - mean)

theorem continuous_quad {d : ℕ} (mean : Fin d → ℝ) (cov : Matrix (Fin d) (Fin d) ℝ) : Continuous (quad mean cov) := by
  unfold quad
  fun_prop

/-- Logarithm of the density of a normal law. -/
noncomputable def logDensity {d : ℕ} (mean : Fin d → ℝ) (cov : Matrix (Fin d) (Fin d) ℝ) (z : Fin d → ℝ) : ℝ :=
  -(Real.log cov.det + d * Real.log (2 * Real.pi)) / 2 - quad mean cov z / 2

theorem continuous_logDensity {d : ℕ} (mean : Fin d → ℝ) (cov : Matrix (Fin d) (Fin d) ℝ) :
    Continuous (logDensity mean cov) := by
  unfold logDensity
  have := continuous_quad mean cov
  fun_prop

variable {d : ℕ} (mean : Fin d → ℝ) {cov : Matrix (Fin d) (Fin d) ℝ}

theorem sqrt_facts (h : cov.PosDef) : ∃ A : Matrix (Fin d) (Fin d) ℝ, A = CFC.sqrt cov ∧ A * A = cov ∧
    A.transpose = A ∧ A.det ≠ 0 ∧ Real.log |A.det⁻¹| = -Real.log cov.det / 2 := by
  have h1 : CFC.sqrt cov * CFC.sqrt cov = cov := CFC.sqrt_mul_sqrt_self _ h.posSemidef.nonneg
  have h2 : (CFC.sqrt cov).det * (CFC.sqrt cov).det = cov.det := by rw [← Matrix.det_mul, h1]
  have h3 : (CFC.sqrt cov).det ≠ 0 := by
    intro h0
    rw [h0, zero_mul] at h2
    exact h.det_pos.ne h2
  refine ⟨_, rfl, h1, ?_, h3, ?_⟩
  · have := (CFC.sqrt_nonneg cov).isSelfAdjoint
    rw [IsSelfAdjoint, Matrix.star_eq_conjTranspose, Matrix.conjTranspose_eq_transpose_of_trivial] at this
    exact this
  · rw [← h2, Real.log_mul h3 h3, Real.log_abs, Real.log_inv]
    ring

theorem quad_sqrt (h : cov.PosDef) (w : Fin d → ℝ) : quad mean cov (mean + (CFC.sqrt cov).mulVec w) = w ⬝ᵥ w := by
  obtain ⟨A, hA, h1, h2, h3, -⟩ := sqrt_facts h
  rw [← hA]
  unfold quad
  rw [add_sub_cancel_left, ← h1, Matrix.mul_inv_rev, Matrix.mulVec_mulVec, Matrix.mul_assoc,
    Matrix.nonsing_inv_mul _ (isUnit_iff_ne_zero.2 h3), Matrix.mul_one]
  conv_lhs => rw [← h2, Matrix.mulVec_transpose, ← Matrix.dotProduct_mulVec, Matrix.mulVec_mulVec, h2,
    Matrix.mul_nonsing_inv _ (isUnit_iff_ne_zero.2 h3), Matrix.one_mulVec]

/-- The affine change of variables, as a measurable equivalence. -/
noncomputable def affine (A : Matrix (Fin d) (Fin d) ℝ) (hA : A.det ≠ 0) : (Fin d → ℝ) ≃ᵐ (Fin d → ℝ) where
  toFun w := mean + A.mulVec w
  invFun z := A⁻¹.mulVec (z - mean)
  left_inv w := by
    simp [Matrix.mulVec_mulVec, Matrix.nonsing_inv_mul _ (isUnit_iff_ne_zero.2 hA)]
  right_inv z := by
    simp [Matrix.mulVec_mulVec, Matrix.mul_nonsing_inv _ (isUnit_iff_ne_zero.2 hA)]
  measurable_toFun := by
    have : Continuous fun w : Fin d → ℝ => mean + A.mulVec w := by fun_prop
    exact this.measurable
  measurable_invFun := by
    have : Continuous fun w : Fin d → ℝ => A⁻¹.mulVec (w - mean) := by fun_prop
    exact this.measurable

theorem affine_volume (A : Matrix (Fin d) (Fin d) ℝ) (hA : A.det ≠ 0) :
    MeasurePreserving (affine mean A hA) volume (ENNReal.ofReal |A.det⁻¹| • volume) := by
  refine ⟨(affine mean A hA).measurable, ?_⟩
  have h1 := Real.map_matrix_volume_pi_eq_smul_volume_pi hA
  have h2 : Measurable (Matrix.toLin' A) := by
    have : Continuous (Matrix.toLin' A) := LinearMap.continuous_of_finiteDimensional _
    exact this.measurable
  have h3 : (affine mean A hA : (Fin d → ℝ) → _) = (fun z => mean + z) ∘ Matrix.toLin' A := rfl
  rw [h3, ← Measure.map_map (measurable_const_add mean) h2, h1, Measure.map_smul,
    (measurePreserving_add_left volume mean).map_eq]

/-- A non-degenerate normal law has the Gaussian density. -/
theorem normalLaw_density (h : cov.PosDef) :
    normalLaw mean cov = volume.withDensity fun z => ENNReal.ofReal (Real.exp (logDensity mean cov z)) := by
  obtain ⟨A, hA, h1, h2, h3, h4⟩ := sqrt_facts h
  rw [stdNormal_map, stdNormal_density, ← hA]
  have := map_withDensity_equiv (affine mean A h3) (affine_volume mean A h3) fun x => ENNReal.ofReal
      (Real.exp (-(d * Real.log (2 * Real.pi)) / 2 - x ⬝ᵥ x / 2))
  refine this.trans ?_
  rw [withDensity_smul_measure, ← withDensity_smul]
  swap
  · have : Continuous fun x : Fin d → ℝ => Real.exp (-(d * Real.log (2 * Real.pi)) / 2 - x ⬝ᵥ x / 2) := by fun_prop
    exact this.measurable.ennreal_ofReal.comp (affine mean A h3).symm.measurable
  congr 1
  funext z
  rw [Pi.smul_apply, smul_eq_mul, Function.comp_apply, ← ENNReal.ofReal_mul (abs_nonneg _)]
  congr 1
  have hp : 0 < |A.det⁻¹| := abs_pos.2 (inv_ne_zero h3)
  rw [← Real.exp_log hp, ← Real.exp_add, h4]
  congr 1
  unfold logDensity
  have hq := quad_sqrt mean h ((affine mean A h3).symm z)
  rw [← hA] at hq
  have hz : mean + A.mulVec ((affine mean A h3).symm z) = z := (affine mean A h3).apply_symm_apply z
  rw [hz] at hq
  rw [hq]
  ring

theorem integrable_dotProduct_stdNormal (d : ℕ) : Integrable (fun w : Fin d → ℝ => w ⬝ᵥ w) (stdNormal d) := by
  unfold dotProduct
  refine integrable_finset_sum _ fun i _ => ?_
  have h : Integrable (fun x : ℝ => x * x) (gaussianReal 0 1) := by
    have := (memLp_id_gaussianReal (μ := 0) (v := 1) 2).integrable_sq
    refine this.congr (Filter.Eventually.of_forall fun x => ?_)
    simp [sq]
  exact (measurePreserving_eval (fun _ : Fin d => gaussianReal 0 1) i).integrable_comp_of_integrable h

theorem integral_dotProduct_stdNormal (d : ℕ) : ∫ w : Fin d → ℝ, w ⬝ᵥ w ∂(stdNormal d) = d := by
  unfold dotProduct
  have h : Integrable (fun x : ℝ => x * x) (gaussianReal 0 1) := by
    have := (memLp_id_gaussianReal (μ := 0) (v := 1) 2).integrable_sq
    refine this.congr (Filter.Eventually.of_forall fun x => ?_)
    simp [sq]
  have hv : ∫ x : ℝ, x * x ∂(gaussianReal 0 1) = 1 := by
    have h1 := variance_id_gaussianReal (μ := 0) (v := 1)
    rw [variance_eq_integral (by fun_prop)] at h1
    simp at h1
    rw [← h1]
    congr 1
    funext x
    ring
  have hi : ∀ i : Fin d, Integrable (fun w : Fin d → ℝ => w i * w i) (stdNormal d) := fun i =>
    (measurePreserving_eval (fun _ : Fin d => gaussianReal 0 1) i).integrable_comp_of_integrable h
  rw [integral_finset_sum _ fun i _ => hi i]
  have : ∀ i : Fin d, ∫ w : Fin d → ℝ, w i * w i ∂(stdNormal d) = 1 := by
    intro i
    rw [← hv, ← (measurePreserving_eval (fun _ : Fin d => gaussianReal 0 1) i).map_eq,
      integral_map (measurable_pi_apply i).aemeasurable (by fun_prop)]
    rfl
  simp [this]

theorem integrable_quad (h : cov.PosDef) : Integrable (quad mean cov) (normalLaw mean cov) := by
  have hc : Continuous fun w : Fin d → ℝ => mean + (CFC.sqrt cov).mulVec w := by fun_prop
  rw [stdNormal_map, integrable_map_measure (continuous_quad mean cov).aestronglyMeasurable hc.measurable.aemeasurable]
  refine (integrable_dotProduct_stdNormal d).congr (Filter.Eventually.of_forall fun w => ?_)
  exact (quad_sqrt mean h w).symm

theorem integral_quad (h : cov.PosDef) : ∫ z, quad mean cov z ∂(normalLaw mean cov) = d := by
  have hc : Continuous fun w : Fin d → ℝ => mean + (CFC.sqrt cov).mulVec w := by fun_prop
  rw [stdNormal_map, integral_map hc.measurable.aemeasurable (continuous_quad mean cov).aestronglyMeasurable,
    ← integral_dotProduct_stdNormal d]
  congr 1
  funext w
  exact quad_sqrt mean h w

end BMI.Samplers
