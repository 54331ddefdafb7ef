import Verif.Lemmas.CcaTasks
import Verif.Lemmas.KdeTransforms
import Mathlib.Analysis.Calculus.ParametricIntegral
import Mathlib.MeasureTheory.Integral.IntegralEqImproper
import Mathlib.Analysis.SpecialFunctions.Gaussian.GaussianIntegral
import Mathlib.Analysis.SpecialFunctions.Trigonometric.ArctanDeriv
import Mathlib.Analysis.Convex.SpecificFunctions.Deriv

/-! The correlation of the normal distribution functions of two normal variables (the correlation of ranks). -/

namespace BMI.Cca

open MeasureTheory ProbabilityTheory Filter Topology BMI.Gebelein BMI.Samplers BMI.Consistency BMI.Student BMI.Kde

theorem cdf_prob (y : ℝ) : Samplers.normalCdf y = γ.real (Set.Iic y) := by rw [normalCdf_eq_cdf, cdf_eq_real]

theorem cdf_abs (x : ℝ) : |Samplers.normalCdf x| ≤ 1 := by
  obtain ⟨h0, h1⟩ := normalCdf_mem x
  rw [abs_of_pos h0]
  exact h1.le

theorem cdf_zero : Samplers.normalCdf 0 = 1 / 2 := by
  unfold Samplers.normalCdf Samplers.erf
  simp
  norm_num

/-- The mean of the distribution function at a shifted normal variable. -/
theorem blur_cdf (a b x : ℝ) : blur a b Samplers.normalCdf x = Samplers.normalCdf (a * x / √(1 + b ^ 2)) := by
  set K := √(1 + b ^ 2) with hK
  have hK2 : K ^ 2 = 1 + b ^ 2 := Real.sq_sqrt (by positivity)
  have hK0 : 0 < K := Real.sqrt_pos.2 (by positivity)
  have h1 : (-b / K) ^ 2 + (1 / K) ^ 2 = 1 := by
    field_simp
    rw [hK2]
    ring
  have hm : Measurable fun p : ℝ × ℝ => -b / K * p.1 + 1 / K * p.2 := by fun_prop
  have h2 : Samplers.normalCdf (a * x / K) = (γ.prod γ).real ((fun p : ℝ × ℝ => -b / K * p.1 + 1 / K * p.2) ⁻¹' Set.Iic (a * x / K)) := by
    rw [cdf_prob, ← map_measureReal_apply hm measurableSet_Iic, map_sum h1]
  rw [h2, measureReal_def, Measure.prod_apply (hm measurableSet_Iic), ← integral_toReal]
  · refine integral_congr_ae (.of_forall fun z => ?_)
    simp only
    rw [cdf_prob, measureReal_def]
    congr 2
    ext v
    simp only [Set.mem_Iic, Set.mem_preimage]
    rw [show -b / K * z + 1 / K * v = (v - b * z) / K by ring, div_le_div_iff_of_pos_right hK0]
    constructor <;> intro h <;> linarith
  · exact (measurable_measure_prodMk_left (hm measurableSet_Iic)).aemeasurable
  · exact .of_forall fun z => measure_lt_top _ _

/-- The height of the normal density. -/
noncomputable def top : ℝ := 1 / √(2 * Real.pi)

theorem top_pos : 0 < top := by unfold top; positivity

theorem top_sq : top ^ 2 = 1 / (2 * Real.pi) := by
  unfold top
  rw [div_pow, Real.sq_sqrt (by positivity), one_pow]

theorem cdf_deriv (x : ℝ) : HasDerivAt Samplers.normalCdf (top * Real.exp (-(x ^ 2 / 2))) x := by
  refine (normalCdf_deriv x).congr_deriv ?_
  rw [div_pow, Real.sq_sqrt (by norm_num), top, ← Real.sqrt_mul (by positivity), mul_comm Real.pi]

theorem pdf_eq (x : ℝ) : gaussianPDFReal 0 1 x = top * Real.exp (-(x ^ 2 / 2)) := by
  simp only [gaussianPDFReal, top, NNReal.coe_one, mul_one, sub_zero, one_div]
  rw [neg_div]

/-- The mean of the product of the distribution functions at a variable and at its multiple. -/
noncomputable def common (r : ℝ) : ℝ := ∫ x, Samplers.normalCdf x * Samplers.normalCdf (r * x) ∂γ

theorem common_deriv (r : ℝ) : HasDerivAt common (1 / (2 * Real.pi) * (1 / ((1 + r ^ 2) * √(2 + r ^ 2)))) r := by
  have mc := continuous_normalCdf
  have h := (hasDerivAt_integral_of_dominated_loc_of_deriv_le (μ := γ) (s := Set.univ) (x₀ := r) (bound := fun x => |x| * top)
    (F := fun r x => Samplers.normalCdf x * Samplers.normalCdf (r * x))
    (F' := fun r x => Samplers.normalCdf x * (top * Real.exp (-((r * x) ^ 2 / 2)) * x)) univ_mem
    (.of_forall fun r => (by fun_prop : Continuous fun x => Samplers.normalCdf x * Samplers.normalCdf (r * x)).aestronglyMeasurable)
    (Integrable.of_bound (C := 1) (by fun_prop : Continuous fun x => Samplers.normalCdf x * Samplers.normalCdf (r * x)).aestronglyMeasurable
      (.of_forall fun x => by
        rw [Real.norm_eq_abs, abs_mul]
        exact mul_le_one₀ (cdf_abs _) (abs_nonneg _) (cdf_abs _)))
    (by fun_prop : Continuous fun x => Samplers.normalCdf x * (top * Real.exp (-((r * x) ^ 2 / 2)) * x)).aestronglyMeasurable
    (.of_forall fun x r _ => by
      rw [Real.norm_eq_abs, abs_mul, abs_mul, abs_mul, abs_of_pos top_pos, abs_of_pos (Real.exp_pos _)]
      have h1 : Real.exp (-((r * x) ^ 2 / 2)) ≤ 1 := Real.exp_le_one_iff.2 (by nlinarith [sq_nonneg (r * x)])
      have h2 := cdf_abs x
      have h3 : top * Real.exp (-((r * x) ^ 2 / 2)) * |x| ≤ |x| * top := by
        rw [mul_right_comm, mul_comm |x| top]
        exact mul_le_of_le_one_right (mul_nonneg top_pos.le (abs_nonneg _)) h1
      exact (mul_le_of_le_one_left (by have := top_pos; positivity) h2).trans h3)
    (((memLp_id_gaussianReal 1).integrable le_rfl).abs.mul_const top)
    (.of_forall fun x r _ => by
      have h1 := (cdf_deriv (r * x)).comp r ((hasDerivAt_id r).mul_const x)
      rw [one_mul] at h1
      exact h1.const_mul _)).2
  refine h.congr_deriv ?_
  rw [integral_gaussianReal_eq_integral_smul one_ne_zero]
  set b : ℝ := (1 + r ^ 2) / 2 with hb
  have hb0 : 0 < b := by positivity
  have e1 : ∀ x, gaussianPDFReal 0 1 x • (Samplers.normalCdf x * (top * Real.exp (-((r * x) ^ 2 / 2)) * x))
      = Samplers.normalCdf x * (top ^ 2 * (x * Real.exp (-b * x ^ 2))) := fun x => by
    rw [pdf_eq, smul_eq_mul, show -b * x ^ 2 = -(x ^ 2 / 2) + -((r * x) ^ 2 / 2) by rw [hb]; ring, Real.exp_add]
    ring
  simp_rw [e1]
  have hv : ∀ x : ℝ, HasDerivAt (fun x => -(top ^ 2 / (2 * b)) * Real.exp (-b * x ^ 2)) (top ^ 2 * (x * Real.exp (-b * x ^ 2))) x := fun x => by
    have h1 := ((hasDerivAt_pow 2 x).const_mul (-b)).exp.const_mul (-(top ^ 2 / (2 * b)))
    refine h1.congr_deriv ?_
    field_simp
    norm_num
  have i1 : Integrable fun x : ℝ => top ^ 2 * (x * Real.exp (-b * x ^ 2)) := (integrable_mul_exp_neg_mul_sq hb0).const_mul _
  have i2 : Integrable fun x : ℝ => -(top ^ 2 / (2 * b)) * Real.exp (-b * x ^ 2) := (integrable_exp_neg_mul_sq hb0).const_mul _
  have bd : ∀ {g : ℝ → ℝ}, Integrable g → Integrable fun x => Samplers.normalCdf x * g x := fun {g} hg =>
    hg.bdd_mul (c := 1) mc.aestronglyMeasurable (.of_forall fun x => by rw [Real.norm_eq_abs]; exact cdf_abs x)
  have e2 : ∀ x : ℝ, top * Real.exp (-(x ^ 2 / 2)) * (-(top ^ 2 / (2 * b)) * Real.exp (-b * x ^ 2))
      = -(top ^ 3 / (2 * b)) * Real.exp (-(b + 1 / 2) * x ^ 2) := fun x => by
    rw [show -(b + 1 / 2) * x ^ 2 = -(x ^ 2 / 2) + -b * x ^ 2 by ring, Real.exp_add]
    ring
  have i3 : Integrable fun x : ℝ => top * Real.exp (-(x ^ 2 / 2)) * (-(top ^ 2 / (2 * b)) * Real.exp (-b * x ^ 2)) := by
    simp_rw [e2]
    exact (integrable_exp_neg_mul_sq (by positivity)).const_mul _
  rw [integral_mul_deriv_eq_deriv_mul_of_integrable (fun x _ => cdf_deriv x) (fun x _ => hv x) (bd i1) i3 (bd i2)]
  simp_rw [e2]
  rw [integral_const_mul, integral_gaussian]
  have e3 : √(Real.pi / (b + 1 / 2)) = √(2 * Real.pi) / √(2 + r ^ 2) := by
    rw [← Real.sqrt_div (by positivity)]
    congr 1
    rw [hb]
    field_simp
    ring
  have e4 : top * √(2 * Real.pi) = 1 := by
    unfold top
    exact one_div_mul_cancel (by positivity)
  have e5 : (0 : ℝ) < √(2 + r ^ 2) := by positivity
  rw [e3, ← top_sq]
  have e6 : -(-(top ^ 3 / (2 * b)) * (√(2 * Real.pi) / √(2 + r ^ 2))) = top ^ 2 * (top * √(2 * Real.pi)) / (2 * b) / √(2 + r ^ 2) := by
    field_simp
  rw [e6, e4, show 2 * b = 1 + r ^ 2 by rw [hb]; ring]
  field_simp

theorem arc_deriv (r : ℝ) : HasDerivAt (fun r => Real.arctan (r / √(2 + r ^ 2))) (1 / ((1 + r ^ 2) * √(2 + r ^ 2))) r := by
  have hp : 0 < 2 + r ^ 2 := by positivity
  have hs : 0 < √(2 + r ^ 2) := Real.sqrt_pos.2 hp
  have h1 := (((hasDerivAt_pow 2 r).const_add 2).sqrt hp.ne')
  have h2 : HasDerivAt (fun r => Real.arctan (r / √(2 + r ^ 2)))
      (1 / (1 + (r / √(2 + r ^ 2)) ^ 2) * ((1 * √(2 + r ^ 2) - r * ((2 : ℕ) * r ^ (2 - 1) / (2 * √(2 + r ^ 2)))) / √(2 + r ^ 2) ^ 2)) r :=
    ((hasDerivAt_id r).div h1 hs.ne').arctan
  refine h2.congr_deriv ?_
  have hq : √(2 + r ^ 2) ^ 2 = 2 + r ^ 2 := Real.sq_sqrt hp.le
  rw [div_pow, hq]
  have h3 : 1 + r ^ 2 / (2 + r ^ 2) = 2 * (1 + r ^ 2) / (2 + r ^ 2) := by field_simp; ring
  rw [h3]
  have h4 : (1 : ℝ) * √(2 + r ^ 2) - r * ((2 : ℕ) * r ^ (2 - 1) / (2 * √(2 + r ^ 2))) = 2 / √(2 + r ^ 2) := by
    rw [eq_div_iff hs.ne', sub_mul, one_mul, ← pow_two, hq]
    field_simp
    push_cast
    ring
  rw [h4]
  field_simp

theorem common_eq (r : ℝ) : common r = 1 / 4 + 1 / (2 * Real.pi) * Real.arctan (r / √(2 + r ^ 2)) := by
  have hd : ∀ r, HasDerivAt (fun r => common r - 1 / (2 * Real.pi) * Real.arctan (r / √(2 + r ^ 2))) 0 r := fun r =>
    ((common_deriv r).sub ((arc_deriv r).const_mul _)).congr_deriv (sub_self _)
  have h := is_const_of_deriv_eq_zero (fun r => (hd r).differentiableAt) (fun r => (hd r).deriv) r 0
  have h0 : common 0 = 1 / 4 := by
    have hb := blur_cdf 0 1 0
    unfold blur at hb
    simp only [zero_mul, zero_add, one_mul, zero_div, cdf_zero] at hb
    unfold common
    simp only [zero_mul, cdf_zero]
    rw [integral_mul_const, hb]
    norm_num
  simp only [zero_div, Real.arctan_zero, mul_zero, sub_zero, h0] at h
  linarith

theorem mean_cdf : ∫ x, Samplers.normalCdf x ∂γ = 1 / 2 := by
  have hb := blur_cdf 0 1 0
  unfold blur at hb
  simpa only [zero_mul, zero_add, one_mul, zero_div, cdf_zero] using hb

theorem memLp_cdf : MemLp Samplers.normalCdf 2 γ := memLp_bounded continuous_normalCdf.measurable cdf_abs

theorem var_cdf : Var[Samplers.normalCdf; γ] = 1 / 12 := by
  rw [variance_eq_sub memLp_cdf, mean_cdf]
  have h := common_eq 1
  have e : common 1 = ∫ x, (Samplers.normalCdf ^ 2) x ∂γ := by
    unfold common
    refine integral_congr_ae (.of_forall fun x => ?_)
    simp only [one_mul, Pi.pow_apply]
    ring
  rw [← e, h, show (2 : ℝ) + 1 ^ 2 = 3 by norm_num, one_div (√3)]
  rw [Real.arctan_inv_sqrt_three]
  have := Real.pi_pos
  field_simp
  norm_num

theorem cross_cdf {a : ℝ} (ha : a ^ 2 < 1) : cross Samplers.normalCdf Samplers.normalCdf a = 1 / (2 * Real.pi) * Real.arcsin (a / 2) := by
  have hs : a ^ 2 + √(1 - a ^ 2) ^ 2 = 1 := by rw [Real.sq_sqrt (by linarith)]; ring
  have mc := continuous_normalCdf.measurable
  unfold cross
  rw [covariance_eq_sub (memLp_first memLp_cdf) (memLp_second hs memLp_cdf), mean_first mc, mean_second hs mc, mean_cdf]
  have h1 := integral_pair (a := a) (b := √(1 - a ^ 2)) mc cdf_abs mc (memLp_cdf.integrable (by norm_num))
  have h2 : ∫ x, Samplers.normalCdf x * blur a (√(1 - a ^ 2)) Samplers.normalCdf x ∂γ = common (a / √(2 - a ^ 2)) := by
    unfold common
    refine integral_congr_ae (.of_forall fun x => ?_)
    simp only
    rw [blur_cdf, Real.sq_sqrt (by linarith), show 1 + (1 - a ^ 2) = 2 - a ^ 2 by ring, div_mul_eq_mul_div]
  have h3 : ((fun p : ℝ × ℝ => Samplers.normalCdf p.1) * fun p : ℝ × ℝ => Samplers.normalCdf (a * p.1 + √(1 - a ^ 2) * p.2))
      = fun p : ℝ × ℝ => Samplers.normalCdf p.1 * Samplers.normalCdf (a * p.1 + √(1 - a ^ 2) * p.2) := rfl
  rw [h3, h1, h2, common_eq, Real.arcsin_eq_arctan (by constructor <;> nlinarith)]
  have p2 : 0 < 2 - a ^ 2 := by linarith
  have p4 : 0 < 4 - a ^ 2 := by linarith
  have q2 := Real.sqrt_pos.2 p2
  have q4 := Real.sqrt_pos.2 p4
  have e1 : √(2 + (a / √(2 - a ^ 2)) ^ 2) = √(4 - a ^ 2) / √(2 - a ^ 2) := by
    rw [div_pow, Real.sq_sqrt p2.le, ← Real.sqrt_div p4.le]
    congr 1
    field_simp
    ring
  have e2 : √(1 - (a / 2) ^ 2) = √(4 - a ^ 2) / 2 := by
    rw [show 1 - (a / 2) ^ 2 = (4 - a ^ 2) / 2 ^ 2 by ring, Real.sqrt_div p4.le, Real.sqrt_sq (by norm_num)]
  rw [e1, e2]
  have e3 : a / √(2 - a ^ 2) / (√(4 - a ^ 2) / √(2 - a ^ 2)) = a / 2 / (√(4 - a ^ 2) / 2) := by field_simp
  rw [e3]
  ring

/-- The correlation of ranks. -/
theorem ratio_cdf {a : ℝ} (ha : a ^ 2 < 1) : ratio Samplers.normalCdf Samplers.normalCdf a = 6 / Real.pi * Real.arcsin (a / 2) := by
  unfold ratio
  rw [cross_cdf ha, var_cdf, Real.mul_self_sqrt (by norm_num)]
  ring

/-- It is smaller than the correlation itself. -/
theorem rank_lt {a : ℝ} (h0 : a ≠ 0) (ha : a ^ 2 < 1) : (6 / Real.pi * Real.arcsin (a / 2)) ^ 2 < a ^ 2 := by
  have pos : ∀ b : ℝ, 0 < b → b < 1 → 0 ≤ 6 / Real.pi * Real.arcsin (b / 2) ∧ 6 / Real.pi * Real.arcsin (b / 2) < b := by
    intro b hb hb1
    have hpi := Real.pi_pos
    have h0 : (0 : ℝ) ≠ Real.pi / 6 := by positivity
    have h1 := strictConcaveOn_sin_Icc.2 (Set.mem_Icc.2 ⟨le_rfl, hpi.le⟩) (Set.mem_Icc.2 ⟨by positivity, by linarith⟩) h0
      (show 0 < 1 - b by linarith) hb (by ring)
    simp only [smul_eq_mul, Real.sin_zero, mul_zero, zero_add, Real.sin_pi_div_six] at h1
    have h2 : Real.arcsin (b / 2) < b * (Real.pi / 6) := by
      rw [Real.arcsin_lt_iff_lt_sin' ⟨by nlinarith, by nlinarith⟩]
      linarith
    refine ⟨mul_nonneg (by positivity) (Real.arcsin_nonneg.2 (by linarith)), ?_⟩
    calc 6 / Real.pi * Real.arcsin (b / 2) < 6 / Real.pi * (b * (Real.pi / 6)) := mul_lt_mul_of_pos_left h2 (by positivity)
      _ = b := by field_simp
  have h1 : |a| < 1 := (sq_lt_one_iff_abs_lt_one a).1 ha
  rcases lt_or_gt_of_ne h0 with h | h
  · obtain ⟨p1, p2⟩ := pos (-a) (by linarith) (by rwa [abs_of_neg h] at h1)
    rw [neg_div, Real.arcsin_neg] at p1 p2
    nlinarith
  · obtain ⟨p1, p2⟩ := pos a h (by rwa [abs_of_pos h] at h1)
    nlinarith

end BMI.Cca
