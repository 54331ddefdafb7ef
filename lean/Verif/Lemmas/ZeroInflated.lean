import Verif.Lemmas.ExpPoisson
import Verif.Lemmas.Density
import Mathlib.Probability.Kernel.Composition.IntegralCompProd

/-! Mutual information of the zero-inflated Poissonization. -/

namespace BMI.Samplers

open MeasureTheory ProbabilityTheory Set

/-- The conditional probability of `k` given `x`. -/
noncomputable def zipCond (p : ℝ) (x : ℝ) (k : ℕ) : ℝ :=
  (if k = 0 then p else 0) + (1 - p) * (Real.exp (-(x.toNNReal : ℝ)) * (x.toNNReal : ℝ) ^ k / k.factorial)

theorem zipKernel_apply (p : ℝ) (x : ℝ) : zipKernel p x
    = ENNReal.ofReal p • Measure.dirac 0 + ENNReal.ofReal (1 - p) • poissonMeasure x.toNNReal := rfl

/-- The probability of `k`. -/
noncomputable def zipMarg (p : ℝ) (k : ℕ) : ℝ := (if k = 0 then p else 0) + (1 - p) * (1 / 2) ^ (k + 1)

variable {p : ℝ}

theorem zipCond_nonneg (h0 : 0 ≤ p) (h1 : p < 1) (x : ℝ) (k : ℕ) : 0 ≤ zipCond p x k := by
  unfold zipCond
  have : 0 ≤ if k = 0 then p else 0 := by split_ifs <;> simp [h0]
  have h2 : 0 < 1 - p := by linarith
  positivity

theorem zipMarg_pos (h0 : 0 ≤ p) (h1 : p < 1) (k : ℕ) : 0 < zipMarg p k := by
  unfold zipMarg
  have : 0 ≤ if k = 0 then p else 0 := by split_ifs <;> simp [h0]
  have h2 : 0 < 1 - p := by linarith
  positivity

theorem measurable_zipCond : Measurable fun z : ℝ × ℕ => zipCond p z.1 z.2 :=
  measurable_from_prod_countable_left fun k => by
    show Measurable fun x : ℝ => zipCond p x k
    unfold zipCond
    fun_prop

theorem zipKernel_singleton (h0 : 0 ≤ p) (h1 : p < 1) (x : ℝ) (k : ℕ) :
    zipKernel p x {k} = ENNReal.ofReal (zipCond p x k) := by
  have h2 : 0 ≤ 1 - p := by linarith
  unfold zipCond
  rw [ENNReal.ofReal_add (by split_ifs <;> simp [h0]) (by positivity), ENNReal.ofReal_mul h2]
  rw [zipKernel_apply, Measure.add_apply, Measure.smul_apply, Measure.smul_apply, poissonMeasure_singleton, smul_eq_mul, smul_eq_mul]
  congr 1
  by_cases hk : k = 0
  · subst hk; simp
  · rw [if_neg hk, Measure.dirac_apply' _ (measurableSet_singleton _), indicator_of_notMem (by simpa using Ne.symm hk)]
    simp

theorem zipKernel_density (h0 : 0 ≤ p) (h1 : p < 1) (x : ℝ) :
    zipKernel p x = Measure.count.withDensity fun k => ENNReal.ofReal (zipCond p x k) := by
  refine Measure.ext_of_singleton fun k => ?_
  rw [zipKernel_singleton h0 h1, withDensity_apply _ (measurableSet_singleton _), Measure.restrict_singleton]
  simp

theorem isMarkov_zipKernel (h0 : 0 ≤ p) (h1 : p < 1) : IsMarkovKernel (zipKernel p) := by
  refine ⟨fun x => ⟨?_⟩⟩
  rw [zipKernel_apply]
  simp only [Measure.add_apply, Measure.smul_apply, smul_eq_mul, measure_univ, mul_one]
  rw [← ENNReal.ofReal_add h0 (by linarith)]
  simp

theorem isProbabilityMeasure_zipLaw (h0 : 0 ≤ p) (h1 : p < 1) : IsProbabilityMeasure (zipLaw p) := by
  haveI := isMarkov_zipKernel h0 h1
  haveI : IsProbabilityMeasure (expMeasure 1) := isProbabilityMeasure_expMeasure one_pos
  unfold zipLaw
  infer_instance

theorem zipLaw_density (h0 : 0 ≤ p) (h1 : p < 1) :
    zipLaw p = ((volume.restrict (Ioi (0 : ℝ))).prod Measure.count).withDensity
      fun z => ENNReal.ofReal (Real.exp (-z.1) * zipCond p z.1 z.2) := by
  haveI := isMarkov_zipKernel h0 h1
  haveI : IsProbabilityMeasure (expMeasure 1) := isProbabilityMeasure_expMeasure one_pos
  have hm := measurable_zipCond (p := p)
  ext s hs
  unfold zipLaw
  rw [Measure.compProd_apply hs, withDensity_apply _ hs, expMeasure_one,
    lintegral_withDensity_eq_lintegral_mul _ (by fun_prop) (Kernel.measurable_kernel_prodMk_left hs),
    ← lintegral_indicator hs, lintegral_prod _ (Measurable.aemeasurable ?_)]
  · refine lintegral_congr fun x => ?_
    have hsec : MeasurableSet (Prod.mk x ⁻¹' s) := measurable_prodMk_left hs
    rw [Pi.mul_apply, zipKernel_density h0 h1, withDensity_apply _ hsec, ← lintegral_const_mul _ (by fun_prop),
      ← lintegral_indicator hsec]
    refine lintegral_congr fun k => ?_
    by_cases h : (x, k) ∈ s
    · rw [indicator_of_mem (show k ∈ Prod.mk x ⁻¹' s from h), indicator_of_mem h,
        ENNReal.ofReal_mul (Real.exp_pos _).le]
    · rw [indicator_of_notMem (show k ∉ Prod.mk x ⁻¹' s from h), indicator_of_notMem h]
  · refine Measurable.indicator ?_ hs
    fun_prop

theorem zipLaw_fst (h0 : 0 ≤ p) (h1 : p < 1) : (zipLaw p).fst = expMeasure 1 := by
  haveI := isMarkov_zipKernel h0 h1
  haveI : IsProbabilityMeasure (expMeasure 1) := isProbabilityMeasure_expMeasure one_pos
  unfold zipLaw
  rw [Measure.fst_compProd]

theorem integral_poisson_mass (k : ℕ) :
    ∫⁻ x, ENNReal.ofReal (Real.exp (-(x.toNNReal : ℝ)) * (x.toNNReal : ℝ) ^ k / k.factorial) ∂(expMeasure 1)
      = ENNReal.ofReal ((1 / 2) ^ (k + 1)) := by
  have hnn : ∀ x : ℝ, 0 ≤ Real.exp (-(x.toNNReal : ℝ)) * (x.toNNReal : ℝ) ^ k / k.factorial := fun x => by positivity
  have e : EqOn (fun x : ℝ => Real.exp (-(x.toNNReal : ℝ)) * (x.toNNReal : ℝ) ^ k / k.factorial * Real.exp (-x))
      (fun x => 1 / (k.factorial : ℝ) * (x ^ k * Real.exp (-(2 * x)))) (Ioi 0) := by
    intro x hx
    have hx : 0 < x := hx
    simp only [Real.coe_toNNReal _ hx.le]
    have : Real.exp (-(2 * x)) = Real.exp (-x) * Real.exp (-x) := by rw [← Real.exp_add]; ring_nf
    rw [this]
    ring
  have hi : Integrable (fun x : ℝ => Real.exp (-(x.toNNReal : ℝ)) * (x.toNNReal : ℝ) ^ k / k.factorial)
      (expMeasure 1) := by
    rw [integrable_expMeasure, integrableOn_congr_fun e measurableSet_Ioi]
    exact (integrableOn_pow_exp k two_pos).const_mul _
  rw [← ofReal_integral_eq_lintegral_ofReal hi (Filter.Eventually.of_forall hnn)]
  congr 1
  rw [integral_expMeasure, setIntegral_congr_fun measurableSet_Ioi e, integral_const_mul, integral_pow_exp k two_pos]
  have : (k.factorial : ℝ) ≠ 0 := by positivity
  field_simp

theorem zipLaw_snd (h0 : 0 ≤ p) (h1 : p < 1) :
    (zipLaw p).snd = Measure.count.withDensity fun k => ENNReal.ofReal (zipMarg p k) := by
  haveI := isMarkov_zipKernel h0 h1
  haveI : IsProbabilityMeasure (expMeasure 1) := isProbabilityMeasure_expMeasure one_pos
  have h2 : 0 ≤ 1 - p := by linarith
  refine Measure.ext_of_singleton fun k => ?_
  rw [withDensity_apply _ (measurableSet_singleton _), Measure.restrict_singleton,
    Measure.snd_apply (measurableSet_singleton _)]
  unfold zipLaw
  rw [Measure.compProd_apply (measurable_snd (measurableSet_singleton _))]
  have : ∀ x : ℝ, zipKernel p x (Prod.mk x ⁻¹' (Prod.snd ⁻¹' {k})) = ENNReal.ofReal (if k = 0 then p else 0)
      + ENNReal.ofReal (1 - p) *
        ENNReal.ofReal (Real.exp (-(x.toNNReal : ℝ)) * (x.toNNReal : ℝ) ^ k / k.factorial) := by
    intro x
    have e : Prod.mk x ⁻¹' (Prod.snd ⁻¹' {k}) = ({k} : Set ℕ) := by ext; simp
    rw [e, zipKernel_singleton h0 h1, zipCond, ENNReal.ofReal_add (by split_ifs <;> simp [h0]) (by positivity),
      ENNReal.ofReal_mul h2]
  simp only [this]
  rw [lintegral_add_left measurable_const, lintegral_const_mul _ (by fun_prop), integral_poisson_mass]
  simp only [lintegral_const, measure_univ, mul_one, lintegral_smul_measure, lintegral_dirac, smul_eq_mul]
  rw [← ENNReal.ofReal_mul h2, ← ENNReal.ofReal_add (by split_ifs <;> simp [h0]) (by positivity), zipMarg]
  simp

/-! ### Without zero inflation -/

/-- The log-likelihood ratio for `p = 0`. -/
noncomputable def llr0 (x : ℝ) (k : ℕ) : ℝ :=
  -x + k * Real.log x - Real.log k.factorial + (k + 1) * Real.log 2

theorem llr0_eq {x : ℝ} (hx : 0 < x) (k : ℕ) : Real.log (zipCond 0 x k / zipMarg 0 k) = llr0 x k := by
  unfold zipCond zipMarg llr0
  simp only [ite_self, zero_add, sub_zero, one_mul, Real.coe_toNNReal _ hx.le]
  have : (k.factorial : ℝ) ≠ 0 := by positivity
  rw [Real.log_div (by positivity) (by positivity), Real.log_div (by positivity) this,
    Real.log_mul (by positivity) (by positivity), Real.log_exp, Real.log_pow, Real.log_pow, one_div, Real.log_inv]
  push_cast
  ring

theorem integrable_fst_iff {f : ℝ → ℝ} (h0 : 0 ≤ p) (h1 : p < 1) (hf : Measurable f) :
    Integrable (fun z : ℝ × ℕ => f z.1) (zipLaw p) ↔ Integrable f (expMeasure 1) := by
  rw [← zipLaw_fst h0 h1]
  exact (integrable_map_measure hf.aestronglyMeasurable measurable_fst.aemeasurable).symm

theorem integral_fst {f : ℝ → ℝ} (h0 : 0 ≤ p) (h1 : p < 1) (hf : Measurable f) :
    ∫ z, f z.1 ∂(zipLaw p) = ∫ x, f x ∂(expMeasure 1) := by
  rw [← zipLaw_fst h0 h1]
  exact (integral_map measurable_fst.aemeasurable hf.aestronglyMeasurable).symm

theorem snd_hasSum {f : ℕ → ℝ} {a : ℝ} (hf0 : ∀ k, 0 ≤ f k) (hf : HasSum (fun k => (1 / 2 : ℝ) ^ (k + 1) * f k) a) :
    Integrable (fun z : ℝ × ℕ => f z.2) (zipLaw 0) ∧ ∫ z, f z.2 ∂(zipLaw 0) = a := by
  have hm : Measurable f := Measurable.of_discrete
  have hd : Measurable fun k => (zipMarg 0 k).toNNReal := Measurable.of_discrete
  have e : (zipLaw 0).snd = Measure.count.withDensity fun k => ((zipMarg 0 k).toNNReal : ENNReal) :=
    zipLaw_snd le_rfl one_pos
  have e2 : (fun k => (zipMarg 0 k).toNNReal • f k) = fun k => (1 / 2 : ℝ) ^ (k + 1) * f k := by
    funext k
    rw [NNReal.smul_def, Real.coe_toNNReal _ (zipMarg_pos le_rfl one_pos k).le, zipMarg, smul_eq_mul]
    simp
  have hi : Integrable f (zipLaw 0).snd := by
    rw [e, integrable_withDensity_iff_integrable_smul hd, e2, integrable_count_iff]
    exact hf.summable.norm
  refine ⟨(integrable_map_measure hm.aestronglyMeasurable measurable_snd.aemeasurable).1 hi, ?_⟩
  have h1 : ∫ z, f z.2 ∂(zipLaw 0) = ∫ k, f k ∂(zipLaw 0).snd :=
    (integral_map measurable_snd.aemeasurable hm.aestronglyMeasurable).symm
  have h2 : Integrable (fun k => (1 / 2 : ℝ) ^ (k + 1) * f k) Measure.count := by
    rw [integrable_count_iff]; exact hf.summable.norm
  rw [h1, e, integral_withDensity_eq_integral_smul hd, e2, integral_countable' h2]
  simpa using hf.tsum_eq

theorem zipKernel_zero (x : ℝ) : zipKernel 0 x = poissonMeasure x.toNNReal := by
  rw [zipKernel_apply]
  simp

theorem integral_count_mul_log : Integrable (fun z : ℝ × ℕ => (z.2 : ℝ) * Real.log z.1) (zipLaw 0) ∧
    ∫ z, (z.2 : ℝ) * Real.log z.1 ∂(zipLaw 0) = 1 - Real.eulerMascheroniConstant := by
  haveI := isMarkov_zipKernel (p := 0) le_rfl one_pos
  haveI : IsProbabilityMeasure (expMeasure 1) := isProbabilityMeasure_expMeasure one_pos
  have hm : Measurable fun z : ℝ × ℕ => (z.2 : ℝ) * Real.log z.1 := by fun_prop
  have hi : Integrable (fun z : ℝ × ℕ => (z.2 : ℝ) * Real.log z.1) (zipLaw 0) := by
    unfold zipLaw
    rw [Measure.integrable_compProd_iff hm.aestronglyMeasurable]
    constructor
    · refine Filter.Eventually.of_forall fun x => ?_
      show Integrable (fun k : ℕ => (k : ℝ) * Real.log x) (zipKernel 0 x)
      rw [zipKernel_zero]
      exact (integrable_poisson_id _).mul_const _
    · refine (integrable_congr ?_).1 integrable_exp_mul_log.norm
      filter_upwards [expMeasure_pos] with x hx
      show ‖x * Real.log x‖ = ∫ k : ℕ, ‖(k : ℝ) * Real.log x‖ ∂(zipKernel 0 x)
      rw [zipKernel_zero]
      simp only [norm_mul, Real.norm_natCast]
      rw [integral_mul_const, integral_poisson_id, Real.coe_toNNReal _ hx.le, Real.norm_of_nonneg hx.le]
  refine ⟨hi, ?_⟩
  rw [← integral_exp_mul_log]
  unfold zipLaw at hi ⊢
  rw [Measure.integral_compProd hi]
  refine integral_congr_ae ?_
  filter_upwards [expMeasure_pos] with x hx
  show ∫ k : ℕ, (k : ℝ) * Real.log x ∂(zipKernel 0 x) = x * Real.log x
  rw [zipKernel_zero, integral_mul_const, integral_poisson_id, Real.coe_toNNReal _ hx.le]

/-- The series of the documentation, `2 log 2 - γ - S`. -/
noncomputable def zipBracket : ℝ :=
  2 * Real.log 2 - Real.eulerMascheroniConstant - ∑' k : ℕ, Real.log (k + 1 : ℝ) * (1 / 2) ^ (k + 1)

theorem integral_llr0 : Integrable (fun z : ℝ × ℕ => llr0 z.1 z.2) (zipLaw 0) ∧
    ∫ z, llr0 z.1 z.2 ∂(zipLaw 0) = zipBracket := by
  haveI : IsProbabilityMeasure (zipLaw 0) := isProbabilityMeasure_zipLaw le_rfl one_pos
  obtain ⟨i1, v1⟩ := integral_count_mul_log
  obtain ⟨i2, v2⟩ := snd_hasSum (fun k => Real.log_nonneg (by exact_mod_cast k.factorial_pos)) hasSum_log_factorial
  obtain ⟨i3, v3⟩ := snd_hasSum (fun k => k.cast_nonneg) hasSum_geometric_mean
  have i4 : Integrable (fun z : ℝ × ℕ => z.1) (zipLaw 0) :=
    (integrable_fst_iff (f := fun x => x) le_rfl one_pos measurable_id).2 (by simpa using integrable_exp_pow 1)
  have v4 : ∫ z, z.1 ∂(zipLaw 0) = 1 := (integral_fst le_rfl one_pos measurable_id).trans integral_exp_id
  have i5 : Integrable (fun z : ℝ × ℕ => ((z.2 : ℝ) + 1) * Real.log 2) (zipLaw 0) :=
    (i3.add (integrable_const 1)).mul_const _
  have v5 : ∫ z, ((z.2 : ℝ) + 1) * Real.log 2 ∂(zipLaw 0) = 2 * Real.log 2 := by
    rw [integral_mul_const, integral_add i3 (integrable_const 1), v3]
    simp
    norm_num
  have i6 : Integrable (fun z : ℝ × ℕ => -z.1) (zipLaw 0) := i4.neg
  have i7 : Integrable (fun z : ℝ × ℕ => -z.1 + (z.2 : ℝ) * Real.log z.1) (zipLaw 0) := i6.add i1
  have i8 : Integrable (fun z : ℝ × ℕ => -z.1 + (z.2 : ℝ) * Real.log z.1 - Real.log z.2.factorial) (zipLaw 0) :=
    i7.sub i2
  refine ⟨i8.add i5, ?_⟩
  unfold llr0
  rw [integral_add i8 i5, integral_sub i7 i2, integral_add i6 i1, integral_neg, v1, v2, v4, v5, zipBracket]
  ring

/-! ### With zero inflation -/

/-- The log-likelihood ratio at `k = 0`. -/
noncomputable def llrZero (p x : ℝ) : ℝ := Real.log (zipCond p x 0 / zipMarg p 0)

theorem zipCond_zero {x : ℝ} (hx : 0 < x) : zipCond p x 0 = p + (1 - p) * Real.exp (-x) := by
  unfold zipCond
  simp [Real.coe_toNNReal _ hx.le]

theorem zipMarg_zero : zipMarg p 0 = p + (1 - p) * (1 / 2) := by
  unfold zipMarg
  simp

theorem llr_eq (h1 : p < 1) {x : ℝ} (hx : 0 < x) (k : ℕ) :
    Real.log (zipCond p x k / zipMarg p k) = llr0 x k + if k = 0 then llrZero p x - (Real.log 2 - x) else 0 := by
  by_cases hk : k = 0
  · subst hk
    rw [if_pos rfl, llrZero, llr0]
    simp
    ring
  · rw [if_neg hk, add_zero, ← llr0_eq hx]
    unfold zipCond zipMarg
    have h2 : 1 - p ≠ 0 := by linarith
    simp only [if_neg hk, zero_add, sub_zero, one_mul]
    rw [mul_div_mul_left _ _ h2]

theorem measurable_llrZero : Measurable (llrZero p) := by
  unfold llrZero
  have : Measurable fun x => zipCond p x 0 := by
    unfold zipCond
    fun_prop
  fun_prop

theorem integrable_llrZero (h0 : 0 < p) (h1 : p < 1) : Integrable (llrZero p) (expMeasure 1) := by
  haveI : IsProbabilityMeasure (expMeasure 1) := isProbabilityMeasure_expMeasure one_pos
  refine Integrable.of_bound measurable_llrZero.aestronglyMeasurable (|Real.log p| + |Real.log (zipMarg p 0)|) ?_
  filter_upwards [expMeasure_pos] with x hx
  have h2 : 0 < 1 - p := by linarith
  have hc : p ≤ zipCond p x 0 := by
    rw [zipCond_zero hx]
    have := Real.exp_pos (-x)
    nlinarith
  have hc1 : zipCond p x 0 ≤ 1 := by
    rw [zipCond_zero hx]
    have : Real.exp (-x) ≤ 1 := Real.exp_le_one_iff.2 (by linarith)
    nlinarith
  unfold llrZero
  rw [Real.log_div (by linarith) (zipMarg_pos h0.le h1 0).ne', Real.norm_eq_abs]
  refine (abs_sub _ _).trans (add_le_add ?_ le_rfl)
  rw [abs_of_nonpos (Real.log_nonpos (by linarith) hc1), abs_of_neg (Real.log_neg h0 h1)]
  have := Real.log_le_log h0 hc
  linarith

theorem integral_zero_part {h : ℝ → ℝ} (hm : Measurable h) (hi : Integrable h (expMeasure 1)) :
    Integrable (fun z : ℝ × ℕ => if z.2 = 0 then h z.1 else 0) (zipLaw 0) ∧
      ∫ z, (if z.2 = 0 then h z.1 else 0) ∂(zipLaw 0) = ∫ x, Real.exp (-x) * h x ∂(expMeasure 1) := by
  haveI := isMarkov_zipKernel (p := 0) le_rfl one_pos
  haveI : IsProbabilityMeasure (expMeasure 1) := isProbabilityMeasure_expMeasure one_pos
  have hmz : Measurable fun z : ℝ × ℕ => if z.2 = 0 then h z.1 else 0 :=
    Measurable.ite (measurable_snd (measurableSet_singleton 0)) (hm.comp measurable_fst) measurable_const
  have hint : Integrable (fun z : ℝ × ℕ => if z.2 = 0 then h z.1 else 0) (zipLaw 0) := by
    refine Integrable.mono ((integrable_fst_iff le_rfl one_pos hm).2 hi) hmz.aestronglyMeasurable ?_
    refine Filter.Eventually.of_forall fun z => ?_
    split_ifs
    · exact le_rfl
    · simp
  refine ⟨hint, ?_⟩
  unfold zipLaw at hint ⊢
  rw [Measure.integral_compProd hint]
  refine integral_congr_ae ?_
  filter_upwards [expMeasure_pos] with x hx
  show ∫ k : ℕ, (if k = 0 then h x else 0) ∂(zipKernel 0 x) = Real.exp (-x) * h x
  have e : (fun k : ℕ => if k = 0 then h x else 0) = ({0} : Set ℕ).indicator fun _ => h x := by
    funext k
    simp [indicator_apply]
  rw [e, zipKernel_zero, integral_indicator_const _ (measurableSet_singleton _), poissonMeasure_real_singleton]
  simp [Real.coe_toNNReal _ hx.le]

theorem zipLaw_mixture : zipLaw p = ENNReal.ofReal p • (expMeasure 1).map (fun x => (x, 0))
    + ENNReal.ofReal (1 - p) • zipLaw 0 := by
  haveI := isMarkov_zipKernel (p := 0) le_rfl one_pos
  haveI : IsProbabilityMeasure (expMeasure 1) := isProbabilityMeasure_expMeasure one_pos
  haveI : IsFiniteKernel (zipKernel p) := ⟨ENNReal.ofReal p + ENNReal.ofReal (1 - p), by finiteness, fun x => by
    rw [zipKernel_apply]
    simp⟩
  have hm : Measurable fun x : ℝ => ((x, 0) : ℝ × ℕ) := by fun_prop
  ext s hs
  unfold zipLaw
  rw [Measure.add_apply, Measure.smul_apply, Measure.smul_apply, Measure.compProd_apply hs, Measure.compProd_apply hs,
    Measure.map_apply hm hs, smul_eq_mul, smul_eq_mul, ← lintegral_indicator_one (hm hs), ← lintegral_const_mul _
      (measurable_one.indicator (hm hs)), ← lintegral_const_mul _ (Kernel.measurable_kernel_prodMk_left hs),
    ← lintegral_add_left ((measurable_one.indicator (hm hs)).const_mul _)]
  refine lintegral_congr fun x => ?_
  have hsec : MeasurableSet (Prod.mk x ⁻¹' s) := measurable_prodMk_left hs
  rw [zipKernel_zero, zipKernel_apply, Measure.add_apply, Measure.smul_apply, Measure.smul_apply,
    Measure.dirac_apply' _ hsec]
  rfl

/-- The part of the mutual information that the code forgets. -/
noncomputable def zipGap (p x : ℝ) : ℝ :=
  p * llrZero p x + (1 - p) * (Real.exp (-x) * (llrZero p x - (Real.log 2 - x)))

theorem zipGap_neg (h0 : 0 < p) (h1 : p < 1) {x : ℝ} (hx : 0 < x) (hx2 : x ≠ Real.log 2) : zipGap p x < 0 := by
  unfold zipGap llrZero
  rw [zipCond_zero hx, zipMarg_zero]
  set u := Real.exp (-x) with hu
  have hu0 : 0 < u := Real.exp_pos _
  have hu2 : u ≠ 1 / 2 := by
    intro h
    apply hx2
    have : -x = Real.log (1 / 2) := by rw [← h, hu, Real.log_exp]
    rw [one_div, Real.log_inv] at this
    linarith
  have hl : Real.log 2 - x = Real.log (2 * u) := by
    rw [Real.log_mul two_ne_zero hu0.ne', hu, Real.log_exp]; ring
  have h2 : 0 < 1 - p := by linarith
  set A := p + (1 - p) * u with hA
  set B := p + (1 - p) * (1 / 2) with hB
  have hA0 : 0 < A := by positivity
  have hB0 : 0 < B := by positivity
  have hAB : A ≠ B := by
    intro h
    apply hu2
    have : (1 - p) * (u - 1 / 2) = 0 := by rw [hA, hB] at h; linarith
    rcases mul_eq_zero.1 this with h | h <;> linarith
  rw [hl, ← Real.log_div (by positivity) (by positivity)]
  have e1 : Real.log (A / B) < A / B - 1 := Real.log_lt_sub_one_of_pos (by positivity) (by
    rw [Ne, div_eq_one_iff_eq hB0.ne']; exact hAB)
  have e2 : Real.log (A / B / (2 * u)) ≤ A / B / (2 * u) - 1 := Real.log_le_sub_one_of_pos (by positivity)
  have e3 : p * (A / B - 1) + (1 - p) * (u * (A / B / (2 * u) - 1)) = 0 := by
    have : u * (A / B / (2 * u)) = A / B * (1 / 2) := by field_simp
    rw [mul_sub u, this]
    have : p * (A / B - 1) + (1 - p) * (A / B * (1 / 2) - u * 1) = A / B * B - A := by rw [hA, hB]; ring
    rw [this, div_mul_cancel₀ _ hB0.ne', sub_self]
  have e4 := mul_lt_mul_of_pos_left e1 h0
  have e5 := mul_le_mul_of_nonneg_left (mul_le_mul_of_nonneg_left e2 hu0.le) h2.le
  linarith

theorem integrable_zipGap (h0 : 0 < p) (h1 : p < 1) : Integrable (zipGap p) (expMeasure 1) ∧
    Integrable (fun x => llrZero p x - (Real.log 2 - x)) (expMeasure 1) ∧
    Integrable (fun x => Real.exp (-x) * (llrZero p x - (Real.log 2 - x))) (expMeasure 1) := by
  haveI : IsProbabilityMeasure (expMeasure 1) := isProbabilityMeasure_expMeasure one_pos
  have i1 := integrable_llrZero h0 h1
  have i2 : Integrable (fun x : ℝ => x) (expMeasure 1) := by simpa using integrable_exp_pow 1
  have i3 : Integrable (fun x => llrZero p x - (Real.log 2 - x)) (expMeasure 1) := i1.sub ((integrable_const _).sub i2)
  have hm := measurable_llrZero (p := p)
  have i4 : Integrable (fun x => Real.exp (-x) * (llrZero p x - (Real.log 2 - x))) (expMeasure 1) := by
    refine Integrable.mono i3 (by fun_prop) ?_
    filter_upwards [expMeasure_pos] with x hx
    rw [norm_mul, Real.norm_of_nonneg (Real.exp_pos _).le]
    exact mul_le_of_le_one_left (norm_nonneg _) (Real.exp_le_one_iff.2 (by linarith))
  exact ⟨(i1.const_mul _).add (i4.const_mul _), i3, i4⟩

theorem integral_zipGap_neg (h0 : 0 < p) (h1 : p < 1) : ∫ x, zipGap p x ∂(expMeasure 1) < 0 := by
  haveI : IsProbabilityMeasure (expMeasure 1) := isProbabilityMeasure_expMeasure one_pos
  obtain ⟨i, -, -⟩ := integrable_zipGap h0 h1
  have hae : ∀ᵐ x ∂(expMeasure 1), 0 < -zipGap p x := by
    have hne : ∀ᵐ x ∂(expMeasure 1), x ≠ Real.log 2 := by
      rw [expMeasure_one]
      exact (withDensity_absolutelyContinuous _ _).ae_le (ae_restrict_of_ae (Measure.ae_ne volume _))
    filter_upwards [expMeasure_pos, hne] with x hx hx2
    have := zipGap_neg h0 h1 hx hx2
    linarith
  have hpos : 0 < ∫ x, -zipGap p x ∂(expMeasure 1) := by
    rw [integral_pos_iff_support_of_nonneg_ae (hae.mono fun x hx => hx.le) i.neg]
    have : (expMeasure 1) (Function.support fun x => -zipGap p x) = 1 := by
      rw [measure_eq_measure_of_null_diff (subset_univ _) ?_, measure_univ]
      refine measure_mono_null (fun x hx => ?_) (ae_iff.1 hae)
      have : -zipGap p x = 0 := by simpa [Function.mem_support] using hx
      simp only [mem_setOf_eq, this, lt_self_iff_false, not_false_eq_true]
    rw [this]
    exact one_pos
  rw [integral_neg] at hpos
  linarith

theorem integral_llr (h0 : 0 < p) (h1 : p < 1) :
    Integrable (fun z : ℝ × ℕ => Real.log (zipCond p z.1 z.2 / zipMarg p z.2)) (zipLaw p) ∧
      ∫ z, Real.log (zipCond p z.1 z.2 / zipMarg p z.2) ∂(zipLaw p)
        = (1 - p) * zipBracket + ∫ x, zipGap p x ∂(expMeasure 1) := by
  haveI : IsProbabilityMeasure (expMeasure 1) := isProbabilityMeasure_expMeasure one_pos
  have h2 : 0 ≤ 1 - p := by linarith
  obtain ⟨i1, v1⟩ := integral_llr0
  obtain ⟨ig, i3, i4⟩ := integrable_zipGap h0 h1
  have hm := measurable_llrZero (p := p)
  obtain ⟨i2, v2⟩ := integral_zero_part (h := fun x => llrZero p x - (Real.log 2 - x)) (by fun_prop) i3
  have hpos : ∀ᵐ z ∂(zipLaw 0), 0 < z.1 := by
    have := expMeasure_pos
    rw [← zipLaw_fst le_rfl one_pos] at this
    exact ae_of_ae_map measurable_fst.aemeasurable this
  have hae : (fun z : ℝ × ℕ => Real.log (zipCond p z.1 z.2 / zipMarg p z.2)) =ᵐ[zipLaw 0]
      fun z => llr0 z.1 z.2 + if z.2 = 0 then llrZero p z.1 - (Real.log 2 - z.1) else 0 := by
    filter_upwards [hpos] with z hz using llr_eq h1 hz z.2
  have hz : Measurable fun x : ℝ => ((x, 0) : ℝ × ℕ) := by fun_prop
  have hM : Measurable fun z : ℝ × ℕ => Real.log (zipCond p z.1 z.2 / zipMarg p z.2) := by
    have := measurable_zipCond (p := p)
    have h3 : Measurable fun z : ℝ × ℕ => zipMarg p z.2 :=
      (Measurable.of_discrete (f := zipMarg p)).comp measurable_snd
    fun_prop
  have ia : Integrable (fun z : ℝ × ℕ => Real.log (zipCond p z.1 z.2 / zipMarg p z.2))
      ((expMeasure 1).map fun x => (x, 0)) := by
    rw [integrable_map_measure hM.aestronglyMeasurable hz.aemeasurable]
    exact integrable_llrZero h0 h1
  have va : ∫ z, Real.log (zipCond p z.1 z.2 / zipMarg p z.2) ∂((expMeasure 1).map fun x => (x, (0 : ℕ)))
      = ∫ x, llrZero p x ∂(expMeasure 1) := integral_map hz.aemeasurable hM.aestronglyMeasurable
  have ib : Integrable (fun z : ℝ × ℕ => Real.log (zipCond p z.1 z.2 / zipMarg p z.2)) (zipLaw 0) :=
    (integrable_congr hae).2 (i1.add i2)
  have vb : ∫ z, Real.log (zipCond p z.1 z.2 / zipMarg p z.2) ∂(zipLaw 0)
      = zipBracket + ∫ x, Real.exp (-x) * (llrZero p x - (Real.log 2 - x)) ∂(expMeasure 1) := by
    rw [integral_congr_ae hae, integral_add i1 i2, v1, v2]
  have ia' := ia.smul_measure (c := ENNReal.ofReal p) (by finiteness)
  have ib' := ib.smul_measure (c := ENNReal.ofReal (1 - p)) (by finiteness)
  rw [zipLaw_mixture]
  refine ⟨ia'.add_measure ib', ?_⟩
  rw [integral_add_measure ia' ib', integral_smul_measure, integral_smul_measure, va, vb,
    ENNReal.toReal_ofReal h0.le, ENNReal.toReal_ofReal h2, smul_eq_mul, smul_eq_mul]
  unfold zipGap
  rw [integral_add ((integrable_llrZero h0 h1).const_mul _) (i4.const_mul _), integral_const_mul, integral_const_mul]
  ring

/-- The mutual information as an integral of the log-likelihood ratio. -/
theorem zipLaw_mi (h0 : 0 ≤ p) (h1 : p < 1)
    (hint : Integrable (fun z : ℝ × ℕ => Real.log (zipCond p z.1 z.2 / zipMarg p z.2)) (zipLaw p)) :
    mutualInfo (zipLaw p) = ENNReal.ofReal (∫ z, Real.log (zipCond p z.1 z.2 / zipMarg p z.2) ∂(zipLaw p)) ∧
      0 ≤ ∫ z, Real.log (zipCond p z.1 z.2 / zipMarg p z.2) ∂(zipLaw p) := by
  haveI := isProbabilityMeasure_zipLaw h0 h1
  have hm := measurable_zipCond (p := p)
  have e : (fun z : ℝ × ℕ => Real.log (Real.exp (-z.1) * zipCond p z.1 z.2 / (Real.exp (-z.1) * zipMarg p z.2)))
      = fun z => Real.log (zipCond p z.1 z.2 / zipMarg p z.2) := by
    funext z
    rw [mul_div_mul_left _ _ (Real.exp_ne_zero _)]
  have main := mutualInfo_of_density (volume.restrict (Ioi (0 : ℝ))) Measure.count (zipLaw p)
    (fun z => Real.exp (-z.1) * zipCond p z.1 z.2) (fun x => Real.exp (-x)) (zipMarg p) (by fun_prop) (by fun_prop)
    Measurable.of_discrete (fun z => mul_nonneg (Real.exp_pos _).le (zipCond_nonneg h0 h1 _ _))
    (fun x => (Real.exp_pos _).le) (fun k => (zipMarg_pos h0 h1 k).le) (zipLaw_density h0 h1)
    ((zipLaw_fst h0 h1).trans expMeasure_one) (zipLaw_snd h0 h1) (by rw [e]; exact hint)
  rwa [e] at main

theorem zipLaw_zero_mi : mutualInfo (zipLaw 0) = ENNReal.ofReal zipBracket ∧ 0 ≤ zipBracket := by
  obtain ⟨i, v⟩ := integral_llr0
  have hpos : ∀ᵐ z ∂(zipLaw 0), 0 < z.1 := by
    have := expMeasure_pos
    rw [← zipLaw_fst le_rfl one_pos] at this
    exact ae_of_ae_map measurable_fst.aemeasurable this
  have hae : (fun z : ℝ × ℕ => Real.log (zipCond 0 z.1 z.2 / zipMarg 0 z.2)) =ᵐ[zipLaw 0]
      fun z => llr0 z.1 z.2 := by
    filter_upwards [hpos] with z hz using llr0_eq hz z.2
  have := zipLaw_mi le_rfl one_pos ((integrable_congr hae).2 i)
  rwa [integral_congr_ae hae, v] at this

theorem zipLaw_mi_lt (h0 : 0 < p) (h1 : p < 1) : mutualInfo (zipLaw p) < ENNReal.ofReal ((1 - p) * zipBracket) := by
  obtain ⟨i, v⟩ := integral_llr h0 h1
  obtain ⟨e, h⟩ := zipLaw_mi h0.le h1 i
  have := integral_zipGap_neg h0 h1
  rw [e, v]
  rw [v] at h
  exact (ENNReal.ofReal_lt_ofReal_iff (by linarith)).2 (by linarith)

end BMI.Samplers
