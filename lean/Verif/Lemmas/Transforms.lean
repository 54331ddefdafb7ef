import Verif.Model.Transforms
import Verif.Lemmas.Samplers
import Mathlib.Analysis.SpecialFunctions.Gaussian.GaussianIntegral
import Mathlib.Analysis.SpecialFunctions.Integrals.Basic
import Mathlib.Analysis.SpecialFunctions.Trigonometric.Deriv
import Mathlib.MeasureTheory.Function.SpecialFunctions.Basic
import Mathlib.MeasureTheory.Function.SpecialFunctions.Arctan
import Mathlib.MeasureTheory.Measure.Lebesgue.Integral
import Mathlib.Probability.CDF
import Mathlib.Probability.Distributions.Gaussian.Real
import Mathlib.Tactic

/-! Lemmas about the deterministic transforms. -/

namespace BMI.Samplers

open Matrix MeasureTheory ProbabilityTheory

/-! ### Signed powers -/

theorem abs_signedPow {α : ℝ} (hα : 0 < α) (x : ℝ) : |signedPow α x| = |x| ^ α := by
  unfold signedPow
  rcases lt_trichotomy x 0 with h | h | h
  · simp [sign_neg h, abs_of_nonneg (Real.rpow_nonneg (abs_nonneg x) α)]
  · subst h; simp [Real.zero_rpow hα.ne']
  · simp [sign_pos h, abs_of_nonneg (Real.rpow_nonneg (abs_nonneg x) α)]

theorem sign_signedPow {α : ℝ} (x : ℝ) : SignType.sign (signedPow α x) = SignType.sign x := by
  unfold signedPow
  rcases lt_trichotomy x 0 with h | h | h
  · rw [sign_neg h, sign_neg]
    have := Real.rpow_pos_of_pos (abs_pos.2 h.ne) α
    simp only [SignType.coe_neg, SignType.coe_one]
    linarith
  · subst h; simp
  · rw [sign_pos h, sign_pos]
    have := Real.rpow_pos_of_pos (abs_pos.2 h.ne') α
    simp only [SignType.coe_one]
    linarith

theorem signedPow_injective {α : ℝ} (hα : 0 < α) : Function.Injective (signedPow α) := by
  intro x y h
  have h1 : SignType.sign x = SignType.sign y := by rw [← sign_signedPow (α := α) x, h, sign_signedPow]
  have h2 : |x| = |y| := by
    have : |x| ^ α = |y| ^ α := by rw [← abs_signedPow hα, h, abs_signedPow hα]
    exact (Real.rpow_left_inj (abs_nonneg _) (abs_nonneg _) hα.ne').1 this
  rw [← sign_mul_abs x, ← sign_mul_abs y, h1, h2]

theorem signedPow_injOn {α : ℝ} (hα : α ≠ 0) : Set.InjOn (signedPow α) {x | x ≠ 0} := by
  intro x hx y hy h
  have h1 : SignType.sign x = SignType.sign y := by rw [← sign_signedPow (α := α) x, h, sign_signedPow]
  have h2 : |x| = |y| := by
    unfold signedPow at h
    rw [h1] at h
    have hs : ((SignType.sign y : SignType) : ℝ) ≠ 0 := by
      rcases lt_or_gt_of_ne hy with h | h
      · simp [sign_neg h]
      · simp [sign_pos h]
    exact (Real.rpow_left_inj (abs_nonneg _) (abs_nonneg _) hα).1 (mul_left_cancel₀ hs h)
  rw [← sign_mul_abs x, ← sign_mul_abs y, h1, h2]

theorem halfCube_eq (x : ℝ) : halfCube x = signedPow 1.5 x := by
  unfold halfCube signedPow
  rcases eq_or_ne x 0 with h | h
  · subst h; simp
  · have hx := abs_pos.2 h
    rw [show (1.5 : ℝ) = 1 + 1 / 2 by norm_num, Real.rpow_add hx, Real.rpow_one, ← Real.sqrt_eq_rpow, ← mul_assoc,
      sign_mul_abs]

theorem measurable_signedPow (α : ℝ) : Measurable (signedPow α) := by
  have h : signedPow α = fun x => (if 0 < x then 1 else if x < 0 then -1 else (0 : ℝ)) * |x| ^ α := by
    funext x
    unfold signedPow
    rcases lt_trichotomy x 0 with h | h | h
    · simp [sign_neg h, h, not_lt.2 h.le]
    · subst h; simp
    · simp [sign_pos h, h]
  rw [h]
  refine Measurable.mul (Measurable.ite measurableSet_Ioi measurable_const
    (Measurable.ite measurableSet_Iio measurable_const measurable_const)) ?_
  exact (continuous_abs.measurable).pow_const α

/-! ### Wiggly -/

theorem hasDerivAt_sin_affine (a b x : ℝ) : HasDerivAt (fun x => Real.sin (a * x + b)) (a * Real.cos (a * x + b)) x := by
  have h : HasDerivAt (fun x => a * x + b) a x := by
    simpa using ((hasDerivAt_id x).const_mul a).add_const b
  simpa [mul_comm] using h.sin

theorem wigglyX_strictMono : StrictMono wigglyX := by
  have hd : ∀ x, HasDerivAt wigglyX (1 + 0.4 * (1.0 * Real.cos (1.0 * x + 0)) + 0.2 * (1.7 * Real.cos (1.7 * x + 1))
      + 0.03 * (3.3 * Real.cos (3.3 * x + -2.5))) x := by
    intro x
    have := (((hasDerivAt_id x).add ((hasDerivAt_sin_affine 1.0 0 x).const_mul 0.4)).add
      ((hasDerivAt_sin_affine 1.7 1 x).const_mul 0.2)).add ((hasDerivAt_sin_affine 3.3 (-2.5) x).const_mul 0.03)
    refine this.congr_of_eventuallyEq (Filter.Eventually.of_forall fun y => ?_)
    simp [wigglyX, sub_eq_add_neg]
  refine strictMono_of_deriv_pos fun x => ?_
  rw [(hd x).deriv]
  have h1 := Real.neg_one_le_cos (1.0 * x + 0)
  have h2 := Real.neg_one_le_cos (1.7 * x + 1)
  have h3 := Real.neg_one_le_cos (3.3 * x + -2.5)
  norm_num at h1 h2 h3 ⊢
  linarith

theorem wigglyY_strictMono : StrictMono wigglyY := by
  have hd : ∀ x, HasDerivAt wigglyY (1 + -0.4 * (0.4 * Real.cos (0.4 * x + 0)) + 0.17 * (1.3 * Real.cos (1.3 * x + 3.5))
      + 0.02 * (4.3 * Real.cos (4.3 * x + -2.5))) x := by
    intro x
    have := (((hasDerivAt_id x).add ((hasDerivAt_sin_affine 0.4 0 x).const_mul (-0.4))).add
      ((hasDerivAt_sin_affine 1.3 3.5 x).const_mul 0.17)).add ((hasDerivAt_sin_affine 4.3 (-2.5) x).const_mul 0.02)
    refine this.congr_of_eventuallyEq (Filter.Eventually.of_forall fun y => ?_)
    simp [wigglyY, sub_eq_add_neg]
  refine strictMono_of_deriv_pos fun x => ?_
  rw [(hd x).deriv]
  have h1 := Real.cos_le_one (0.4 * x + 0)
  have h2 := Real.neg_one_le_cos (1.3 * x + 3.5)
  have h3 := Real.neg_one_le_cos (4.3 * x + -2.5)
  norm_num at h1 h2 h3 ⊢
  linarith

theorem continuous_wigglyX : Continuous wigglyX := by unfold wigglyX; fun_prop
theorem continuous_wigglyY : Continuous wigglyY := by unfold wigglyY; fun_prop

/-! ### Normal distribution function -/

theorem erf_strictMono : StrictMono erf := by
  have hc : Continuous fun t : ℝ => Real.exp (-t ^ 2) := by fun_prop
  refine strictMono_of_deriv_pos fun x => ?_
  have h := (intervalIntegral.integral_hasDerivAt_right (hc.intervalIntegrable 0 x)
    (hc.stronglyMeasurableAtFilter _ _) hc.continuousAt).const_mul (2 / √Real.pi)
  rw [show deriv erf x = _ from h.deriv]
  have := Real.pi_pos
  positivity

theorem continuous_erf : Continuous erf := by
  have hc : Continuous fun t : ℝ => Real.exp (-t ^ 2) := by fun_prop
  exact continuous_const.mul (intervalIntegral.continuous_primitive (fun a b => hc.intervalIntegrable a b) 0)

theorem two_pow_half : (2 : ℝ) ^ (0.5 : ℝ) = √2 := by
  rw [Real.sqrt_eq_rpow]; norm_num

theorem normalCdf_strictMono : StrictMono normalCdf := by
  intro x y h
  unfold normalCdf
  have h2 : (0 : ℝ) < (2 : ℝ) ^ (0.5 : ℝ) := by positivity
  have := erf_strictMono (div_lt_div_of_pos_right h h2)
  linarith

theorem continuous_normalCdf : Continuous normalCdf := by
  unfold normalCdf
  have := continuous_erf
  fun_prop

theorem gaussian_Iic_zero : (gaussianReal 0 1).real (Set.Iic 0) = 1 / 2 := by
  have h1 : (gaussianReal 0 1).real (Set.Iic 0) + (gaussianReal 0 1).real (Set.Iic 0)ᶜ = 1 :=
    probReal_add_probReal_compl measurableSet_Iic
  have h2 : (gaussianReal 0 1).real (Set.Iic 0)ᶜ = (gaussianReal 0 1).real (Set.Iic 0) := by
    have hm : (gaussianReal 0 1).map (fun x => -x) = gaussianReal 0 1 := by
      rw [gaussianReal_map_neg, neg_zero]
    have : (gaussianReal 0 1).real (Set.Iic 0) = (gaussianReal 0 1).real (Set.Ici 0) := by
      conv_lhs => rw [← hm]
      rw [map_measureReal_apply measurable_neg measurableSet_Iic]
      congr 1
      ext x; simp
    rw [this, Set.compl_Iic]
    have hn : NullSingletonClass (gaussianReal 0 1) := nullSingletonClass_gaussianReal one_ne_zero
    exact (measureReal_congr Ioi_ae_eq_Ici)
  linarith

/-- `normal_cdf` is the distribution function of the standard normal law. -/
theorem normalCdf_eq_cdf (x : ℝ) : normalCdf x = cdf (gaussianReal 0 1) x := by
  rw [cdf_eq_real]
  have hi : Integrable (gaussianPDFReal 0 1) := integrable_gaussianPDFReal 0 1
  have hr : ∀ s, MeasurableSet s → (gaussianReal 0 1).real s = ∫ t in s, gaussianPDFReal 0 1 t := by
    intro s hs
    rw [measureReal_def, gaussianReal_apply_eq_integral 0 one_ne_zero s, ENNReal.toReal_ofReal]
    exact setIntegral_nonneg hs fun t _ => gaussianPDFReal_nonneg 0 1 t
  have h0 : (∫ t in Set.Iic (0 : ℝ), gaussianPDFReal 0 1 t) = 1 / 2 := by
    rw [← hr _ measurableSet_Iic, gaussian_Iic_zero]
  have h1 : (∫ t in Set.Iic x, gaussianPDFReal 0 1 t) - ∫ t in Set.Iic (0 : ℝ), gaussianPDFReal 0 1 t
      = ∫ t in (0 : ℝ)..x, gaussianPDFReal 0 1 t :=
    intervalIntegral.integral_Iic_sub_Iic hi.integrableOn hi.integrableOn
  rw [hr _ measurableSet_Iic, eq_add_of_sub_eq h1, h0]
  unfold normalCdf erf
  rw [two_pow_half]
  have h2 : (0 : ℝ) < √2 := by positivity
  have hsub := intervalIntegral.integral_comp_div (a := 0) (b := x) (fun t : ℝ => Real.exp (-t ^ 2)) h2.ne'
  rw [zero_div, smul_eq_mul] at hsub
  have hp : ∀ t : ℝ, gaussianPDFReal 0 1 t = (√(2 * Real.pi))⁻¹ * Real.exp (-(t / √2) ^ 2) := by
    intro t
    simp only [gaussianPDFReal, NNReal.coe_one, mul_one, sub_zero]
    congr 2
    rw [div_pow, Real.sq_sqrt (by norm_num)]
    ring
  simp only [hp]
  rw [intervalIntegral.integral_const_mul, hsub, Real.sqrt_mul (by norm_num)]
  have h3 : (0 : ℝ) < √Real.pi := by have := Real.pi_pos; positivity
  field_simp
  ring

theorem normalCdf_mem (x : ℝ) : 0 < normalCdf x ∧ normalCdf x < 1 := by
  constructor
  · calc 0 ≤ normalCdf (x - 1) := by rw [normalCdf_eq_cdf]; exact cdf_nonneg _ _
      _ < normalCdf x := normalCdf_strictMono (by linarith)
  · calc normalCdf x < normalCdf (x + 1) := normalCdf_strictMono (by linarith)
      _ ≤ 1 := by rw [normalCdf_eq_cdf]; exact cdf_le_one _ _

/-! ### Swiss roll -/

/-- The angle of the Swiss roll. -/
noncomputable def rollAngle (x : ℝ) : ℝ := 1.5 * Real.pi * (1 + 2 * x)

theorem roll_injOn : Set.InjOn (fun x : ℝ => (rollAngle x * Real.cos (rollAngle x) / 21,
    rollAngle x * Real.sin (rollAngle x) / 21)) (Set.Ici (-1 / 2)) := by
  intro x hx y hy h
  simp only [Prod.mk.injEq] at h
  have hpos : ∀ z ∈ Set.Ici (-1 / 2 : ℝ), 0 ≤ rollAngle z := by
    intro z hz
    have : -1 / 2 ≤ z := hz
    have := Real.pi_pos
    unfold rollAngle
    have : 0 ≤ 1 + 2 * z := by linarith
    positivity
  have hsq : ∀ t : ℝ, t ^ 2 = 441 * ((t * Real.cos t / 21) ^ 2 + (t * Real.sin t / 21) ^ 2) := by
    intro t
    linear_combination (-t ^ 2) * Real.sin_sq_add_cos_sq t
  have h2 : rollAngle x ^ 2 = rollAngle y ^ 2 := by
    rw [hsq (rollAngle x), hsq (rollAngle y), h.1, h.2]
  have h3 := (sq_eq_sq₀ (hpos x hx) (hpos y hy)).1 h2
  unfold rollAngle at h3
  have h4 : (1.5 * Real.pi : ℝ) ≠ 0 := by have := Real.pi_pos; positivity
  have := mul_left_cancel₀ h4 h3
  linarith

/-! ### Skew-symmetric matrices and their exponentials -/

variable {n : ℕ}

theorem exp_skew_orthogonal {g : Matrix (Fin n) (Fin n) ℝ} (h : gᵀ = -g) :
    (NormedSpace.exp g)ᵀ * NormedSpace.exp g = 1 := by
  rw [← Matrix.exp_transpose, h, Matrix.exp_neg]
  exact Matrix.nonsing_inv_mul _ ((Matrix.isUnit_iff_isUnit_det _).1 (Matrix.isUnit_exp g))

theorem exp_neg_mul_exp (g : Matrix (Fin n) (Fin n) ℝ) : NormedSpace.exp (-g) * NormedSpace.exp g = 1 := by
  rw [Matrix.exp_neg]
  exact Matrix.nonsing_inv_mul _ ((Matrix.isUnit_iff_isUnit_det _).1 (Matrix.isUnit_exp g))

theorem exp_mul_exp_neg (g : Matrix (Fin n) (Fin n) ℝ) : NormedSpace.exp g * NormedSpace.exp (-g) = 1 := by
  rw [Matrix.exp_neg]
  exact Matrix.mul_nonsing_inv _ ((Matrix.isUnit_iff_isUnit_det _).1 (Matrix.isUnit_exp g))

theorem dotProduct_orthogonal {m : Matrix (Fin n) (Fin n) ℝ} (h : mᵀ * m = 1) (x : Fin n → ℝ) :
    (m *ᵥ x) ⬝ᵥ (m *ᵥ x) = x ⬝ᵥ x := by
  rw [Matrix.dotProduct_mulVec, Matrix.vecMul_mulVec, ← Matrix.dotProduct_mulVec, h, Matrix.one_mulVec]

set_option backward.isDefEq.respectTransparency false in
theorem continuous_matrix_exp : Continuous (NormedSpace.exp : Matrix (Fin n) (Fin n) ℝ → Matrix (Fin n) (Fin n) ℝ) :=
  open scoped Norms.Operator in NormedSpace.exp_continuous

theorem map_mul_skew {g : Matrix (Fin n) (Fin n) ℝ} (h : gᵀ = -g) (r : ℝ) : (g.map (· * r))ᵀ = -g.map (· * r) := by
  ext i j
  have := congrFun (congrFun h i) j
  simp only [transpose_apply, neg_apply] at this
  simp [this]

/-- The rotation part of the spiral. -/
noncomputable def windBy (g : Matrix (Fin n) (Fin n) ℝ) (x : Fin n → ℝ) : Fin n → ℝ :=
  NormedSpace.exp (g.map (· * (x ⬝ᵥ x))) *ᵥ x

theorem windBy_norm {g : Matrix (Fin n) (Fin n) ℝ} (h : gᵀ = -g) (x : Fin n → ℝ) :
    windBy g x ⬝ᵥ windBy g x = x ⬝ᵥ x :=
  dotProduct_orthogonal (exp_skew_orthogonal (map_mul_skew h _)) x

theorem windBy_neg_windBy {g : Matrix (Fin n) (Fin n) ℝ} (h : gᵀ = -g) (x : Fin n → ℝ) :
    windBy (-g) (windBy g x) = x := by
  show NormedSpace.exp ((-g).map (· * (windBy g x ⬝ᵥ windBy g x))) *ᵥ windBy g x = x
  rw [windBy_norm h]
  have : (-g).map (· * (x ⬝ᵥ x)) = -(g.map (· * (x ⬝ᵥ x))) := by ext; simp
  rw [this, windBy, Matrix.mulVec_mulVec, exp_neg_mul_exp, Matrix.one_mulVec]

theorem continuous_windBy (g : Matrix (Fin n) (Fin n) ℝ) : Continuous (windBy g) := by
  unfold windBy
  have h1 : Continuous fun x : Fin n → ℝ => g.map (· * (x ⬝ᵥ x)) := by
    refine continuous_matrix fun i j => ?_
    simp only [Matrix.map_apply]
    exact continuous_const.mul (continuous_id.dotProduct continuous_id)
  exact (continuous_matrix_exp.comp h1).matrix_mulVec continuous_id

theorem SpiralObj.call_eq (s : SpiralObj) (x : Fin s.n → ℝ) : s.call x = s.initial *ᵥ windBy s.generator x := by
  unfold SpiralObj.call windBy
  rw [Matrix.mulVec_mulVec]

theorem soGenerator_eq {i j : ℤ} (h : 0 ≤ i ∧ i < j ∧ j < n) : soGenerator n i j
    = .ok fun a b => if (a : ℤ) = j ∧ (b : ℤ) = i then 1 else if (a : ℤ) = i ∧ (b : ℤ) = j then -1 else 0 := by
  unfold soGenerator
  rw [if_neg (by omega), if_neg (not_not.2 h)]

end BMI.Samplers
