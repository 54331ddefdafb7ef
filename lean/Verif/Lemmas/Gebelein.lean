import Mathlib.Probability.Distributions.Gaussian.Fernique
import Mathlib.Probability.Distributions.Gaussian.Real
import Mathlib.Probability.Moments.Covariance
import Mathlib.Analysis.Normed.Lp.SmoothApprox
import Mathlib.Analysis.Calculus.ContDiff.RCLike
import Mathlib.Algebra.QuadraticDiscriminant

/-! Gebelein's inequality: functions of two normal variables are correlated at most as much as the variables. -/

namespace BMI.Gebelein

open MeasureTheory ProbabilityTheory Filter Topology

/-- The standard normal law. -/
noncomputable abbrev γ : Measure ℝ := gaussianReal 0 1

/-- The mean of `f` at a normal variable given another one with correlation `a`. -/
noncomputable def blur (a b : ℝ) (f : ℝ → ℝ) (x : ℝ) : ℝ := ∫ z, f (a * x + b * z) ∂γ

/-- Turning a pair of independent standard normal variables. -/
theorem map_turn {a b : ℝ} (h : a ^ 2 + b ^ 2 = 1) :
    (γ.prod γ).map (fun p => (a * p.1 + b * p.2, -b * p.1 + a * p.2)) = γ.prod γ := by
  obtain ⟨θ, h1, h2⟩ : ∃ θ : ℝ, Real.cos θ = a ∧ Real.sin θ = b := by
    have hn : ‖(⟨a, b⟩ : ℂ)‖ = 1 := by
      rw [Complex.norm_def, Complex.normSq_mk, show a * a + b * b = 1 by nlinarith, Real.sqrt_one]
    have h0 : (⟨a, b⟩ : ℂ) ≠ 0 := by
      intro e
      rw [e, norm_zero] at hn
      exact zero_ne_one hn
    refine ⟨Complex.arg ⟨a, b⟩, ?_, ?_⟩
    · rw [Complex.cos_arg h0, hn, div_one]
    · rw [Complex.sin_arg, hn, div_one]
  have := IsGaussian.map_rotation_eq_self_of_forall_strongDual_eq_zero (μ := γ) (fun L => ?_) θ
  · rw [← h1, ← h2]
    exact this
  · have e : ∀ x : ℝ, L x = x * L 1 := fun x => by
      have := L.map_smul x 1
      simpa using this
    have e2 : (fun x => L x) = fun x => x * L 1 := funext e
    rw [show ∫ x, L x ∂γ = ∫ x, x * L 1 ∂γ from congrArg (fun u => ∫ x, u x ∂γ) e2, integral_mul_const, integral_id_gaussianReal, zero_mul]

theorem map_sum {a b : ℝ} (h : a ^ 2 + b ^ 2 = 1) : (γ.prod γ).map (fun p => a * p.1 + b * p.2) = γ := by
  have h1 := congrArg (Measure.map Prod.fst) (map_turn h)
  rwa [Measure.map_map measurable_fst (by fun_prop), ← Measure.fst, Measure.fst_prod] at h1

theorem map_neg : γ.map (fun x => -x) = γ := by
  rw [gaussianReal_map_neg, neg_zero]

/-- The Cauchy-Schwarz inequality. -/
theorem cauchy {Ω : Type} [MeasurableSpace Ω] {μ : Measure Ω} {u v : Ω → ℝ} (hu : MemLp u 2 μ) (hv : MemLp v 2 μ) :
    (∫ x, u x * v x ∂μ) ^ 2 ≤ (∫ x, u x ^ 2 ∂μ) * ∫ x, v x ^ 2 ∂μ := by
  have h2 := hu.integrable_sq
  have h3 := hv.integrable_sq
  have h4 : Integrable (fun x => u x * v x) μ := hu.integrable_mul hv
  have key : ∀ t : ℝ, 0 ≤ (∫ x, u x ^ 2 ∂μ) * (t * t) + (2 * ∫ x, u x * v x ∂μ) * t + ∫ x, v x ^ 2 ∂μ := by
    intro t
    have e : ∫ x, (t * u x + v x) ^ 2 ∂μ = (∫ x, u x ^ 2 ∂μ) * (t * t) + (2 * ∫ x, u x * v x ∂μ) * t + ∫ x, v x ^ 2 ∂μ := by
      have : (fun x => (t * u x + v x) ^ 2) = fun x => (t * t * u x ^ 2 + 2 * t * (u x * v x)) + v x ^ 2 := by
        funext x
        ring
      have h5 : Integrable (fun x => t * t * u x ^ 2 + 2 * t * (u x * v x)) μ := (h2.const_mul _).add (h4.const_mul _)
      rw [this, integral_add h5 h3, integral_add (h2.const_mul _) (h4.const_mul _), integral_const_mul, integral_const_mul]
      ring
    rw [← e]
    exact integral_nonneg fun x => sq_nonneg _
  have := discrim_le_zero key
  unfold discrim at this
  nlinarith

/-! ## Bounded functions -/

variable {a b : ℝ} {f g : ℝ → ℝ} {M M' : ℝ}

theorem bounded_nonneg (hM : ∀ x, |f x| ≤ M) : 0 ≤ M := (abs_nonneg _).trans (hM 0)

theorem memLp_bounded {μ : Measure ℝ} [IsFiniteMeasure μ] (hf : Measurable f) (hM : ∀ x, |f x| ≤ M) : MemLp f 2 μ :=
  .of_bound hf.aestronglyMeasurable M (.of_forall hM)

theorem measurable_blur (a b : ℝ) (hf : Measurable f) : Measurable (blur a b f) := by
  have h : StronglyMeasurable (Function.uncurry fun x z : ℝ => f (a * x + b * z)) :=
    (hf.comp (by fun_prop : Measurable fun p : ℝ × ℝ => a * p.1 + b * p.2)).stronglyMeasurable
  exact h.integral_prod_right.measurable

theorem abs_blur (a b : ℝ) (hM : ∀ x, |f x| ≤ M) (x : ℝ) : |blur a b f x| ≤ M := by
  have := norm_integral_le_of_norm_le_const (μ := γ) (f := fun z => f (a * x + b * z)) (.of_forall fun z => hM _)
  simpa [blur] using this

theorem blur_neg (hf : Measurable f) (x : ℝ) : blur a (-b) f x = blur a b f x := by
  unfold blur
  have hm : Measurable fun z : ℝ => f (a * x + b * z) := hf.comp (by fun_prop)
  conv_rhs => rw [← map_neg]
  rw [integral_map (by fun_prop) hm.aestronglyMeasurable]
  refine integral_congr_ae (.of_forall fun z => ?_)
  show f _ = f _
  ring_nf

/-- A mean over the pair. -/
theorem integral_pair (hf : Measurable f) (hM : ∀ x, |f x| ≤ M) (hg : Measurable g) (hg' : Integrable g γ) :
    ∫ p, g p.1 * f (a * p.1 + b * p.2) ∂(γ.prod γ) = ∫ x, g x * blur a b f x ∂γ := by
  have hi : Integrable (fun p : ℝ × ℝ => g p.1 * f (a * p.1 + b * p.2)) (γ.prod γ) := by
    have h1 : Integrable (fun p : ℝ × ℝ => g p.1) (γ.prod γ) := hg'.comp_fst γ
    refine h1.mul_bdd (c := M) (hf.comp (by fun_prop : Measurable fun p : ℝ × ℝ => a * p.1 + b * p.2)).aestronglyMeasurable
      (.of_forall fun p => hM _)
  rw [integral_prod _ hi]
  refine integral_congr_ae (.of_forall fun x => ?_)
  show ∫ z, g x * f (a * x + b * z) ∂γ = g x * ∫ z, f (a * x + b * z) ∂γ
  rw [integral_const_mul]

theorem blur_adjoint (h : a ^ 2 + b ^ 2 = 1) (hf : Measurable f) (hM : ∀ x, |f x| ≤ M) (hg : Measurable g) (hM' : ∀ x, |g x| ≤ M') :
    ∫ x, g x * blur a b f x ∂γ = ∫ x, f x * blur a b g x ∂γ := by
  have e1 := integral_pair (a := a) (b := b) hf hM hg ((memLp_bounded hg hM').integrable (by norm_num))
  have e2 := integral_pair (a := a) (b := -b) hg hM' hf ((memLp_bounded hf hM).integrable (by norm_num))
  simp_rw [blur_neg hg] at e2
  rw [← e1, ← e2]
  conv_rhs => rw [← map_turn h]
  rw [integral_map (by fun_prop) ?_]
  · refine integral_congr_ae (.of_forall fun p => ?_)
    show g _ * f _ = f _ * g _
    have : a * (a * p.1 + b * p.2) + -b * (-b * p.1 + a * p.2) = p.1 := by
      linear_combination p.1 * h
    rw [this, mul_comm]
  · refine Measurable.aestronglyMeasurable ?_
    exact (hf.comp measurable_fst).mul (hg.comp (by fun_prop))

theorem blur_blur (hf : Measurable f) (hM : ∀ x, |f x| ≤ M) (x : ℝ) :
    blur a b (blur a b f) x = blur (a ^ 2) (b * √(1 + a ^ 2)) f x := by
  set K := √(1 + a ^ 2) with hK
  have hK2 : K ^ 2 = 1 + a ^ 2 := Real.sq_sqrt (by positivity)
  have hK0 : 0 < K := Real.sqrt_pos.2 (by positivity)
  have h1 : (a / K) ^ 2 + (1 / K) ^ 2 = 1 := by
    field_simp
    rw [hK2]
    ring
  unfold blur
  conv_rhs => rw [← map_sum h1]
  have hm : Measurable fun p : ℝ × ℝ => f (a * (a * x + b * p.1) + b * p.2) := hf.comp (by fun_prop)
  have hm' : Measurable fun z : ℝ => f (a ^ 2 * x + b * K * z) := hf.comp (by fun_prop)
  rw [integral_map (by fun_prop) hm'.aestronglyMeasurable]
  have e : (fun p : ℝ × ℝ => f (a ^ 2 * x + b * K * (a / K * p.1 + 1 / K * p.2))) = fun p => f (a * (a * x + b * p.1) + b * p.2) := by
    funext p
    congr 1
    field_simp
    ring
  rw [e, integral_prod _ (.of_bound hm.aestronglyMeasurable M (.of_forall fun p => hM _))]

theorem next_unit (h : a ^ 2 + b ^ 2 = 1) : (a ^ 2) ^ 2 + (b * √(1 + a ^ 2)) ^ 2 = 1 := by
  rw [mul_pow, Real.sq_sqrt (by positivity)]
  linear_combination (1 + a ^ 2) * h

theorem integral_blur_sq (h : a ^ 2 + b ^ 2 = 1) (hf : Measurable f) (hM : ∀ x, |f x| ≤ M) :
    ∫ x, blur a b f x ^ 2 ∂γ = ∫ x, f x * blur (a ^ 2) (b * √(1 + a ^ 2)) f x ∂γ := by
  have := blur_adjoint h hf hM (measurable_blur a b hf) (abs_blur a b hM)
  simp_rw [blur_blur hf hM] at this
  rw [← this]
  exact integral_congr_ae (.of_forall fun x => sq _)

/-- The correlation of `f` at two variables, relative to the second moment. -/
noncomputable def ratio (f : ℝ → ℝ) (a b : ℝ) : ℝ := |∫ x, f x * blur a b f x ∂γ| / ∫ x, f x ^ 2 ∂γ

theorem ratio_sq (h : a ^ 2 + b ^ 2 = 1) (hf : Measurable f) (hM : ∀ x, |f x| ≤ M) (h0 : 0 < ∫ x, f x ^ 2 ∂γ) :
    ratio f a b ^ 2 ≤ ratio f (a ^ 2) (b * √(1 + a ^ 2)) := by
  unfold ratio
  have h1 := cauchy (memLp_bounded (μ := γ) hf hM) (memLp_bounded (μ := γ) (measurable_blur a b hf) (abs_blur a b hM))
  rw [integral_blur_sq h hf hM] at h1
  have h2 := le_abs_self (∫ x, f x * blur (a ^ 2) (b * √(1 + a ^ 2)) f x ∂γ)
  rw [div_pow, sq_abs, div_le_div_iff₀ (by positivity) h0]
  nlinarith [mul_le_mul_of_nonneg_left h2 h0.le]

theorem ratio_pow (hf : Measurable f) (hM : ∀ x, |f x| ≤ M) (h0 : 0 < ∫ x, f x ^ 2 ∂γ) (n : ℕ) :
    ∀ {a b : ℝ}, a ^ 2 + b ^ 2 = 1 → ∃ b', ratio f a b ^ 2 ^ n ≤ ratio f (a ^ 2 ^ n) b' := by
  induction n with
  | zero => exact fun {a b} _ => ⟨b, by simp⟩
  | succ n ih =>
    intro a b h
    obtain ⟨b', hb⟩ := ih (next_unit h)
    refine ⟨b', ?_⟩
    have h1 := pow_le_pow_left₀ (sq_nonneg _) (ratio_sq h hf hM h0) (2 ^ n)
    rw [← pow_mul, ← pow_succ'] at h1
    rw [← pow_mul, ← pow_succ'] at hb
    exact h1.trans hb

/-- Lipschitz functions of nearly independent variables are nearly uncorrelated. -/
theorem ratio_small {L : NNReal} (hL : LipschitzWith L f) (hM : ∀ x, |f x| ≤ M) (hf0 : ∫ x, f x ∂γ = 0) :
    ∃ C, ∀ a b, ratio f a b ≤ C * |a| := by
  have hf : Measurable f := hL.continuous.measurable
  have hM0 := bounded_nonneg hM
  have hx : Integrable (fun x : ℝ => |x|) γ := (memLp_id_gaussianReal (μ := 0) (v := 1) 1 |>.integrable le_rfl).abs
  refine ⟨(M * (L * ∫ x, |x| ∂γ)) / ∫ x, f x ^ 2 ∂γ, fun a b => ?_⟩
  unfold ratio
  rw [div_mul_eq_mul_div]
  refine div_le_div_of_nonneg_right ?_ (integral_nonneg fun x => sq_nonneg _)
  set m := ∫ z, f (b * z) ∂γ
  have hfb : ∀ c : ℝ, Integrable (fun z => f (c + b * z)) γ := fun c =>
    .of_bound (hf.comp (by fun_prop : Measurable fun z : ℝ => c + b * z)).aestronglyMeasurable M (.of_forall fun p => hM _)
  have hd : ∀ x, |blur a b f x - m| ≤ L * |a| * |x| := by
    intro x
    have h0 := hfb 0
    simp only [zero_add] at h0
    unfold blur
    rw [← integral_sub (hfb _) h0]
    have := norm_integral_le_of_norm_le_const (μ := γ) (f := fun z => f (a * x + b * z) - f (b * z)) (C := L * |a| * |x|)
      (.of_forall fun z => by
        have := hL.dist_le_mul (a * x + b * z) (b * z)
        rw [Real.dist_eq, Real.dist_eq, add_sub_cancel_right, abs_mul] at this
        rw [Real.norm_eq_abs]
        linarith)
    simpa using this
  have hbl : Integrable (fun x => f x * blur a b f x) γ := (memLp_bounded (μ := γ) hf hM).integrable_mul
    (memLp_bounded (μ := γ) (measurable_blur a b hf) (abs_blur a b hM))
  have hfi : Integrable f γ := (memLp_bounded hf hM).integrable (by norm_num)
  have e : ∫ x, f x * blur a b f x ∂γ = ∫ x, f x * (blur a b f x - m) ∂γ := by
    simp_rw [mul_sub]
    rw [integral_sub hbl (hfi.mul_const m), integral_mul_const, hf0, zero_mul, sub_zero]
  rw [e]
  refine (abs_integral_le_integral_abs).trans ?_
  have : ∫ x, |f x * (blur a b f x - m)| ∂γ ≤ ∫ x, M * (L * |a|) * |x| ∂γ := by
    refine integral_mono_of_nonneg (.of_forall fun x => abs_nonneg _) (hx.const_mul _) (.of_forall fun x => ?_)
    show |f x * (blur a b f x - m)| ≤ M * (L * |a|) * |x|
    rw [abs_mul, mul_assoc M]
    exact mul_le_mul (hM x) (hd x) (abs_nonneg _) hM0
  refine this.trans (le_of_eq ?_)
  rw [integral_const_mul]
  ring

theorem le_one_of_pow {q C : ℝ} (hq : 0 ≤ q) (h : ∀ n : ℕ, q ^ 2 ^ n ≤ C) : q ≤ 1 := by
  by_contra h1
  rw [not_le] at h1
  obtain ⟨n, hn⟩ := ((tendsto_pow_atTop_atTop_of_one_lt h1).eventually (eventually_gt_atTop C)).exists
  exact absurd (h n) (not_le.2 (hn.trans_le (pow_le_pow_right₀ h1.le Nat.lt_two_pow_self.le)))

theorem ratio_le {L : NNReal} (h : a ^ 2 + b ^ 2 = 1) (hL : LipschitzWith L f) (hM : ∀ x, |f x| ≤ M) (hf0 : ∫ x, f x ∂γ = 0)
    (h0 : 0 < ∫ x, f x ^ 2 ∂γ) : ratio f a b ≤ |a| := by
  obtain ⟨C, hC⟩ := ratio_small hL hM hf0
  have hr : 0 ≤ ratio f a b := div_nonneg (abs_nonneg _) h0.le
  rcases eq_or_ne a 0 with rfl | ha
  · simpa using hC 0 b
  · have ha' := abs_pos.2 ha
    have : ratio f a b / |a| ≤ 1 := by
      refine le_one_of_pow (C := C) (div_nonneg hr ha'.le) fun n => ?_
      obtain ⟨b', hb⟩ := ratio_pow hL.continuous.measurable hM h0 n h
      rw [div_pow, div_le_iff₀ (by positivity), ← abs_pow]
      exact hb.trans (hC _ _)
    rwa [div_le_one ha'] at this

/-- Conditional means of centred functions have small second moments. -/
theorem blur_contracts {L : NNReal} (h : a ^ 2 + b ^ 2 = 1) (hL : LipschitzWith L f) (hM : ∀ x, |f x| ≤ M) (hf0 : ∫ x, f x ∂γ = 0) :
    ∫ x, blur a b f x ^ 2 ∂γ ≤ a ^ 2 * ∫ x, f x ^ 2 ∂γ := by
  have hf : Measurable f := hL.continuous.measurable
  rw [integral_blur_sq h hf hM]
  have hn : 0 ≤ ∫ x, f x ^ 2 ∂γ := integral_nonneg fun x => sq_nonneg _
  rcases hn.eq_or_lt with h0 | h0
  · have h1 := cauchy (memLp_bounded (μ := γ) hf hM) (memLp_bounded (μ := γ) (measurable_blur (a ^ 2) (b * √(1 + a ^ 2)) hf)
      (abs_blur _ _ hM))
    rw [← h0, zero_mul] at h1
    rw [← h0, mul_zero]
    exact (pow_eq_zero_iff two_ne_zero).1 (le_antisymm h1 (sq_nonneg _)) |>.le
  · have h1 := ratio_le (next_unit h) hL hM hf0 h0
    unfold ratio at h1
    rw [div_le_iff₀ h0, abs_of_nonneg (sq_nonneg a)] at h1
    exact (le_abs_self _).trans h1

/-! ## Covariances -/

variable {Ω : Type} [MeasurableSpace Ω] {μ : Measure Ω} [IsProbabilityMeasure μ] {U V : Ω → ℝ}

theorem memLp_centred (hU : MemLp U 2 μ) : MemLp (fun x => U x - ∫ y, U y ∂μ) 2 μ := hU.sub (memLp_const _)

theorem sq_cov_le (hU : MemLp U 2 μ) (hV : MemLp V 2 μ) : cov[U, V; μ] ^ 2 ≤ Var[U; μ] * Var[V; μ] := by
  rw [variance_eq_integral hU.aemeasurable, variance_eq_integral hV.aemeasurable]
  exact cauchy (memLp_centred hU) (memLp_centred hV)

theorem abs_cov_le (hU : MemLp U 2 μ) (hV : MemLp V 2 μ) : |cov[U, V; μ]| ≤ √Var[U; μ] * √Var[V; μ] := by
  rw [← Real.sqrt_mul (variance_nonneg _ _)]
  exact Real.abs_le_sqrt (sq_cov_le hU hV)

theorem sd_sub (hU : MemLp U 2 μ) (hV : MemLp V 2 μ) : √Var[U - V; μ] ≤ √Var[U; μ] + √Var[V; μ] := by
  refine Real.sqrt_le_iff.2 ⟨by positivity, ?_⟩
  rw [variance_sub hU hV, add_sq, Real.sq_sqrt (variance_nonneg _ _), Real.sq_sqrt (variance_nonneg _ _)]
  linarith [(abs_le.1 (abs_cov_le hU hV)).1]

theorem sd_le_eLpNorm (hU : MemLp U 2 μ) {ε : ℝ} (hε : 0 ≤ ε) (h : eLpNorm U 2 μ ≤ ENNReal.ofReal ε) : √Var[U; μ] ≤ ε := by
  refine Real.sqrt_le_iff.2 ⟨hε, (variance_le_expectation_sq hU.aestronglyMeasurable).trans ?_⟩
  rw [hU.eLpNorm_eq_integral_rpow_norm (by norm_num) (by norm_num), ENNReal.ofReal_le_ofReal_iff hε] at h
  have e : ∫ x, ‖U x‖ ^ (2 : ENNReal).toReal ∂μ = ∫ x, (U ^ 2) x ∂μ := by
    refine integral_congr_ae (.of_forall fun x => ?_)
    simp
  rw [e] at h
  have h0 : 0 ≤ ∫ x, (U ^ 2) x ∂μ := integral_nonneg fun x => sq_nonneg _
  have h1 := Real.rpow_le_rpow (by positivity) h (zero_le_two : (0 : ℝ) ≤ 2)
  rw [← Real.rpow_mul h0] at h1
  simpa using h1

/-- The second variable. -/
theorem memLp_second (h : a ^ 2 + b ^ 2 = 1) (hf : MemLp f 2 γ) : MemLp (fun p : ℝ × ℝ => f (a * p.1 + b * p.2)) 2 (γ.prod γ) := by
  rw [← map_sum h] at hf
  exact (memLp_map_measure_iff hf.1 (by fun_prop)).1 hf

theorem memLp_first (hg : MemLp g 2 γ) : MemLp (fun p : ℝ × ℝ => g p.1) 2 (γ.prod γ) := hg.comp_fst γ

theorem mean_second (h : a ^ 2 + b ^ 2 = 1) (hf : Measurable f) : ∫ p, f (a * p.1 + b * p.2) ∂(γ.prod γ) = ∫ x, f x ∂γ := by
  conv_rhs => rw [← map_sum h]
  rw [integral_map (by fun_prop) hf.aestronglyMeasurable]

theorem mean_first (hg : Measurable g) : ∫ p, g p.1 ∂(γ.prod γ) = ∫ x, g x ∂γ := by
  have h : (γ.prod γ).map Prod.fst = γ := by rw [← Measure.fst, Measure.fst_prod]
  conv_rhs => rw [← h]
  rw [integral_map (by fun_prop) hg.aestronglyMeasurable]

theorem var_second (h : a ^ 2 + b ^ 2 = 1) (hf : Measurable f) : Var[fun p : ℝ × ℝ => f (a * p.1 + b * p.2); γ.prod γ] = Var[f; γ] := by
  conv_rhs => rw [← map_sum h]
  rw [variance_map hf.aemeasurable (by fun_prop)]
  rfl

theorem var_first (hg : Measurable g) : Var[fun p : ℝ × ℝ => g p.1; γ.prod γ] = Var[g; γ] := by
  have h : (γ.prod γ).map Prod.fst = γ := by rw [← Measure.fst, Measure.fst_prod]
  conv_rhs => rw [← h]
  rw [variance_map hg.aemeasurable (by fun_prop)]
  rfl

theorem gebelein_lipschitz {L : NNReal} (h : a ^ 2 + b ^ 2 = 1) (hL : LipschitzWith L f) (hM : ∀ x, |f x| ≤ M) (hg : Measurable g)
    (hg2 : MemLp g 2 γ) : |cov[fun p : ℝ × ℝ => g p.1, fun p => f (a * p.1 + b * p.2); γ.prod γ]| ≤ |a| * (√Var[g; γ] * √Var[f; γ]) := by
  have hf : Measurable f := hL.continuous.measurable
  have hf2 : MemLp f 2 γ := memLp_bounded hf hM
  set m := ∫ x, f x ∂γ with hm
  set c := ∫ x, g x ∂γ with hc
  have hL' : LipschitzWith L fun x => f x - m := by
    refine LipschitzWith.of_dist_le_mul fun x y => ?_
    rw [dist_sub_right]
    exact hL.dist_le_mul x y
  have hM' : ∀ x, |f x - m| ≤ M + |m| := fun x => (abs_sub _ _).trans (by linarith [hM x])
  have hf0 : ∫ x, (f x - m) ∂γ = 0 := by
    rw [integral_sub (hf2.integrable (by norm_num)) (integrable_const _), integral_const, ← hm]
    simp
  have e1 : cov[fun p : ℝ × ℝ => g p.1, fun p => f (a * p.1 + b * p.2); γ.prod γ] = ∫ x, (g x - c) * blur a b (fun x => f x - m) x ∂γ := by
    rw [← integral_pair hL'.continuous.measurable hM' (hg.sub_const c) ((hg2.integrable (by norm_num)).sub (integrable_const _))]
    unfold covariance
    rw [mean_first hg, mean_second h hf]
  have e2 := cauchy (memLp_centred hg2) (memLp_bounded (μ := γ) (measurable_blur a b hL'.continuous.measurable) (abs_blur a b hM'))
  have e3 := blur_contracts h hL' hM' hf0
  rw [← hc, ← e1, ← variance_eq_integral hg2.aemeasurable] at e2
  rw [hm, ← variance_eq_integral hf2.aemeasurable] at e3
  rw [← Real.sqrt_mul (variance_nonneg _ _), ← Real.sqrt_sq_eq_abs a, ← Real.sqrt_mul (sq_nonneg a)]
  refine Real.abs_le_sqrt (e2.trans ?_)
  have := mul_le_mul_of_nonneg_left e3 (variance_nonneg g γ)
  linarith

/-- Gebelein's inequality. -/
theorem gebelein (h : a ^ 2 + b ^ 2 = 1) (hf : Measurable f) (hf2 : MemLp f 2 γ) (hg : Measurable g) (hg2 : MemLp g 2 γ) :
    |cov[fun p : ℝ × ℝ => g p.1, fun p => f (a * p.1 + b * p.2); γ.prod γ]| ≤ |a| * (√Var[g; γ] * √Var[f; γ]) := by
  have ha : |a| ≤ 1 := by
    rw [← sq_le_one_iff_abs_le_one]
    nlinarith [sq_nonneg b]
  refine le_of_forall_pos_le_add fun δ hδ => ?_
  set σ := √Var[g; γ] with hσ
  have hσ0 : 0 ≤ σ := Real.sqrt_nonneg _
  obtain ⟨k, k1, k2, k3⟩ := hf2.exist_eLpNorm_sub_le (by norm_num) (by norm_num) (ε := δ / (2 * (σ + 1))) (by positivity)
  obtain ⟨L, hL⟩ := k2.lipschitzWith_of_hasCompactSupport k1 (by simp)
  obtain ⟨M, hM⟩ := k1.exists_bound_of_continuous k2.continuous
  have hk : Measurable k := k2.continuous.measurable
  have hk2 : MemLp k 2 γ := memLp_bounded hk hM
  have hd : √Var[f - k; γ] ≤ δ / (2 * (σ + 1)) := sd_le_eLpNorm (hf2.sub hk2) (by positivity) k3
  have hsd : √Var[k; γ] ≤ √Var[f; γ] + √Var[f - k; γ] := by
    have := sd_sub hf2 (hf2.sub hk2)
    rwa [sub_sub_cancel] at this
  have b1 := gebelein_lipschitz h hL hM hg hg2
  have b2 := abs_cov_le (memLp_first hg2) (memLp_second h (hf2.sub hk2))
  rw [var_first hg, var_second h (hf.sub hk)] at b2
  have e : cov[fun p : ℝ × ℝ => g p.1, fun p => (f - k) (a * p.1 + b * p.2); γ.prod γ]
      = cov[fun p : ℝ × ℝ => g p.1, fun p => f (a * p.1 + b * p.2); γ.prod γ] - cov[fun p : ℝ × ℝ => g p.1, fun p => k (a * p.1 + b * p.2); γ.prod γ] :=
    covariance_fun_sub_right (memLp_first hg2) (memLp_second h hf2) (memLp_second h hk2)
  rw [e] at b2
  have b3 : σ * √Var[f - k; γ] ≤ δ / 2 := by
    refine (mul_le_mul_of_nonneg_left hd hσ0).trans ?_
    rw [mul_div_assoc', div_le_div_iff₀ (by positivity) (by positivity)]
    nlinarith
  have b4 : |a| * (σ * √Var[k; γ]) ≤ |a| * (σ * √Var[f; γ]) + δ / 2 := by
    have h1 := mul_le_mul_of_nonneg_left hsd hσ0
    have h2 : σ * √Var[k; γ] ≤ σ * √Var[f; γ] + δ / 2 := by linarith
    have h3 := mul_le_mul_of_nonneg_left h2 (abs_nonneg a)
    nlinarith
  have b5 := abs_sub_abs_le_abs_sub (cov[fun p : ℝ × ℝ => g p.1, fun p => f (a * p.1 + b * p.2); γ.prod γ])
    (cov[fun p : ℝ × ℝ => g p.1, fun p => k (a * p.1 + b * p.2); γ.prod γ])
  linarith

end BMI.Gebelein
