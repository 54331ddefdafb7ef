import Verif.Spec.ZeroInflated
import Mathlib.NumberTheory.Harmonic.GammaDeriv
import Mathlib.Analysis.SpecialFunctions.Gamma.Deriv
import Mathlib.Analysis.SpecificLimits.Normed

/-! Integrals against the exponential law, the Poisson law and the geometric law. -/

namespace BMI.Samplers

open MeasureTheory ProbabilityTheory Set

/-- The exponential law by its density. -/
theorem expMeasure_one : expMeasure 1 = (volume.restrict (Ioi (0 : ℝ))).withDensity
    fun x => ENNReal.ofReal (Real.exp (-x)) := by
  have h : expMeasure 1 = volume.withDensity (exponentialPDF 1) := rfl
  have hz : (volume : Measure ℝ).withDensity (exponentialPDF 1)
      = volume.withDensity ((Ioi (0 : ℝ)).indicator fun x => ENNReal.ofReal (Real.exp (-x))) := by
    refine withDensity_congr_ae ?_
    have : ∀ᵐ x : ℝ, x ≠ 0 := Measure.ae_ne volume 0
    filter_upwards [this] with x hx
    rw [exponentialPDF_eq, indicator_apply]
    by_cases h : 0 < x
    · rw [if_pos h.le, if_pos (mem_Ioi.2 h)]; simp
    · have : ¬ 0 ≤ x := fun h' => h (lt_of_le_of_ne h' (Ne.symm hx))
      rw [if_neg this, if_neg (by simpa using h)]; simp
  rw [h, hz, withDensity_indicator measurableSet_Ioi]

theorem integral_expMeasure (f : ℝ → ℝ) : ∫ x, f x ∂(expMeasure 1) = ∫ x in Ioi (0 : ℝ), f x * Real.exp (-x) := by
  rw [expMeasure_one]
  have hm : Measurable fun x : ℝ => (Real.exp (-x)).toNNReal := by fun_prop
  rw [show (fun x : ℝ => ENNReal.ofReal (Real.exp (-x))) = fun x => ((Real.exp (-x)).toNNReal : ENNReal) from rfl,
    integral_withDensity_eq_integral_smul hm]
  congr 1
  funext x
  rw [NNReal.smul_def, Real.coe_toNNReal _ (Real.exp_pos _).le, smul_eq_mul, mul_comm]

theorem integrable_expMeasure (f : ℝ → ℝ) :
    Integrable f (expMeasure 1) ↔ IntegrableOn (fun x => f x * Real.exp (-x)) (Ioi 0) := by
  rw [expMeasure_one]
  have hm : Measurable fun x : ℝ => (Real.exp (-x)).toNNReal := by fun_prop
  rw [show (fun x : ℝ => ENNReal.ofReal (Real.exp (-x))) = fun x => ((Real.exp (-x)).toNNReal : ENNReal) from rfl,
    integrable_withDensity_iff_integrable_smul hm]
  unfold IntegrableOn
  refine integrable_congr (Filter.Eventually.of_forall fun x => ?_)
  simp only [NNReal.smul_def, Real.coe_toNNReal _ (Real.exp_pos _).le, smul_eq_mul, mul_comm]

theorem expMeasure_pos : ∀ᵐ x ∂(expMeasure 1), 0 < x := by
  rw [expMeasure_one]
  exact (withDensity_absolutelyContinuous _ _).ae_le (ae_restrict_mem measurableSet_Ioi)

theorem integral_pow_exp (k : ℕ) {r : ℝ} (hr : 0 < r) :
    ∫ x in Ioi (0 : ℝ), x ^ k * Real.exp (-(r * x)) = (1 / r) ^ (k + 1) * k.factorial := by
  have := Real.integral_rpow_mul_exp_neg_mul_Ioi (a := k + 1) (r := r) (by positivity) hr
  rw [Real.Gamma_nat_eq_factorial, add_sub_cancel_right] at this
  simp only [Real.rpow_natCast] at this
  rw [this]
  norm_cast

theorem integrableOn_pow_exp (k : ℕ) {r : ℝ} (hr : 0 < r) :
    IntegrableOn (fun x : ℝ => x ^ k * Real.exp (-(r * x))) (Ioi 0) := by
  by_contra h
  have h1 := integral_pow_exp k hr
  have h2 : ∫ x in Ioi (0 : ℝ), x ^ k * Real.exp (-(r * x)) = 0 := integral_undef h
  rw [h2] at h1
  have : 0 < (1 / r) ^ (k + 1) * (k.factorial : ℝ) := by positivity
  linarith

theorem integrable_exp_pow (k : ℕ) : Integrable (fun x : ℝ => x ^ k) (expMeasure 1) := by
  rw [integrable_expMeasure]
  simpa using integrableOn_pow_exp k one_pos

theorem integral_exp_id : ∫ x, x ∂(expMeasure 1) = 1 := by
  rw [integral_expMeasure]
  simpa using integral_pow_exp 1 one_pos

theorem abs_mul_log_le {x : ℝ} (hx : 0 < x) : |x * Real.log x| ≤ 1 + x ^ 2 := by
  rcases le_total x 1 with h | h
  · have := (Real.abs_log_mul_self_lt x hx h).le
    rw [mul_comm]
    nlinarith
  · rw [abs_of_nonneg (mul_nonneg hx.le (Real.log_nonneg h))]
    nlinarith [Real.log_le_sub_one_of_pos hx]

theorem integrable_exp_mul_log : Integrable (fun x : ℝ => x * Real.log x) (expMeasure 1) := by
  haveI : IsProbabilityMeasure (expMeasure 1) := isProbabilityMeasure_expMeasure one_pos
  refine Integrable.mono' ((integrable_const 1).add (integrable_exp_pow 2)) (by fun_prop) ?_
  filter_upwards [expMeasure_pos] with x hx
  exact abs_mul_log_le hx

/-- `E[X log X] = 1 - γ` for an exponential variable. -/
theorem integral_exp_mul_log : ∫ x, x * Real.log x ∂(expMeasure 1) = 1 - Real.eulerMascheroniConstant := by
  rw [integral_expMeasure]
  have h1 := Complex.hasDerivAt_GammaIntegral (s := 2) (by simp)
  have h2 := Complex.hasDerivAt_Gamma_nat 1
  have h3 : HasDerivAt Complex.GammaIntegral (((1 : ℕ).factorial : ℂ) * (-Real.eulerMascheroniConstant + harmonic 1)) 2 := by
    have e : ((1 : ℕ) : ℂ) + 1 = 2 := by norm_num
    rw [e] at h2
    refine h2.congr_of_eventuallyEq ?_
    have : {s : ℂ | 0 < s.re} ∈ nhds (2 : ℂ) :=
      (isOpen_lt continuous_const Complex.continuous_re).mem_nhds (by simp)
    filter_upwards [this] with s hs
    exact (Complex.Gamma_eq_integral hs).symm
  have h4 := h1.unique h3
  have h5 : ∫ t : ℝ in Ioi 0, (t : ℂ) ^ ((2 : ℂ) - 1) * (Real.log t * Real.exp (-t))
      = ((∫ t : ℝ in Ioi 0, t * Real.log t * Real.exp (-t) : ℝ) : ℂ) := by
    rw [← integral_complex_ofReal]
    congr 1
    funext t
    have : (2 : ℂ) - 1 = 1 := by norm_num
    rw [this, Complex.cpow_one]
    push_cast
    ring
  rw [h5] at h4
  have h6 := congrArg Complex.re h4
  simp [harmonic] at h6
  linarith

/-! ### Poisson -/

theorem hasSum_poisson_mean (r : ℝ) : HasSum (fun k : ℕ => Real.exp (-r) * r ^ k / k.factorial * k) r := by
  rw [← hasSum_nat_add_iff' 1]
  have h := (NormedSpace.expSeries_div_hasSum_exp (r : ℝ)).mul_left (Real.exp (-r) * r)
  rw [← Real.exp_eq_exp_ℝ] at h
  have e : Real.exp (-r) * r * Real.exp r = r := by
    rw [mul_right_comm, ← Real.exp_add]; simp
  rw [e] at h
  simp only [Finset.range_one, Finset.sum_singleton, Nat.cast_zero, mul_zero, sub_zero]
  refine (congrArg (HasSum · r) (funext fun k => ?_)).mpr h
  have : ((k + 1).factorial : ℝ) = (k + 1) * k.factorial := by push_cast [Nat.factorial_succ]; ring
  rw [this]
  push_cast
  have h1 : (k : ℝ) + 1 ≠ 0 := by positivity
  have h2 : (k.factorial : ℝ) ≠ 0 := by positivity
  field_simp
  ring

theorem integrable_poisson_id (r : NNReal) : Integrable (fun k : ℕ => (k : ℝ)) (poissonMeasure r) := by
  rw [integrable_poissonMeasure_iff]
  simpa using (hasSum_poisson_mean r).summable

theorem integral_poisson_id (r : NNReal) : ∫ k, (k : ℝ) ∂(poissonMeasure r) = r := by
  rw [integral_poissonMeasure]
  simpa using (hasSum_poisson_mean r).tsum_eq

/-! ### Geometric sums -/

/-- The terms of the series in the documentation, from `k = 1`. -/
theorem summable_log_geometric : Summable fun k : ℕ => Real.log (k + 1 : ℝ) * (1 / 2) ^ (k + 1) := by
  have h : Summable fun k : ℕ => (k : ℝ) * (1 / 2) ^ k := by
    simpa using summable_pow_mul_geometric_of_norm_lt_one 1 (R := ℝ) (r := 1 / 2) (by norm_num)
  refine Summable.of_nonneg_of_le (fun k => mul_nonneg (Real.log_nonneg (by linarith [k.cast_nonneg (α := ℝ)]))
    (by positivity)) (fun k => ?_) ((summable_nat_add_iff 1).2 h)
  refine mul_le_mul_of_nonneg_right ?_ (by positivity)
  have := Real.log_le_sub_one_of_pos (show (0 : ℝ) < k + 1 by positivity)
  push_cast
  linarith

theorem log_factorial_le (n : ℕ) : Real.log (n.factorial : ℝ) ≤ (n : ℝ) ^ 2 := by
  rcases Nat.eq_zero_or_pos n with rfl | hn
  · simp
  have h1 : (n.factorial : ℝ) ≤ (n : ℝ) ^ n := by exact_mod_cast Nat.factorial_le_pow n
  have h2 := Real.log_le_log (by positivity) h1
  rw [Real.log_pow] at h2
  have h3 := Real.log_le_sub_one_of_pos (show (0 : ℝ) < n by exact_mod_cast hn)
  have h4 : (0 : ℝ) ≤ n := by positivity
  nlinarith

/-- Summation by parts. -/
theorem hasSum_log_factorial : HasSum (fun k : ℕ => (1 / 2 : ℝ) ^ (k + 1) * Real.log k.factorial)
    (∑' k : ℕ, Real.log (k + 1 : ℝ) * (1 / 2) ^ (k + 1)) := by
  rw [hasSum_iff_tendsto_nat_of_nonneg fun k => mul_nonneg (by positivity)
    (Real.log_nonneg (by exact_mod_cast k.factorial_pos))]
  have hpart : ∀ n : ℕ, ∑ k ∈ Finset.range n, (1 / 2 : ℝ) ^ (k + 1) * Real.log k.factorial
      = ∑ k ∈ Finset.range n, Real.log (k + 1 : ℝ) * (1 / 2) ^ (k + 1) - Real.log n.factorial * (1 / 2) ^ n := by
    intro n
    induction n with
    | zero => simp
    | succ n ih =>
      rw [Finset.sum_range_succ, Finset.sum_range_succ, ih]
      have : Real.log ((n + 1).factorial : ℝ) = Real.log (n + 1 : ℝ) + Real.log n.factorial := by
        rw [← Real.log_mul (by positivity) (by positivity)]
        push_cast [Nat.factorial_succ]
        rfl
      rw [this]
      ring
  have h0 : Filter.Tendsto (fun n : ℕ => Real.log n.factorial * (1 / 2 : ℝ) ^ n) Filter.atTop (nhds 0) := by
    have h := tendsto_pow_const_mul_const_pow_of_abs_lt_one 2 (r := (1 / 2 : ℝ)) (by rw [abs_of_pos] <;> norm_num)
    refine squeeze_zero (fun n => mul_nonneg (Real.log_nonneg (by exact_mod_cast n.factorial_pos)) (by positivity))
      (fun n => mul_le_mul_of_nonneg_right (log_factorial_le n) (by positivity)) h
  simp only [hpart]
  simpa using summable_log_geometric.hasSum.tendsto_sum_nat.sub h0

theorem hasSum_geometric_mean : HasSum (fun k : ℕ => (1 / 2 : ℝ) ^ (k + 1) * k) 1 := by
  have h := hasSum_coe_mul_geometric_of_norm_lt_one (𝕜 := ℝ) (r := 1 / 2) (by norm_num)
  have h2 := h.mul_left (1 / 2)
  norm_num at h2
  refine (congrArg (HasSum · (1 : ℝ)) (funext fun k => ?_)).mpr h2
  rw [pow_succ]
  norm_num
  ring

end BMI.Samplers
