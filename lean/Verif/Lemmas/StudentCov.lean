import Verif.Lemmas.Student
import Mathlib.Analysis.SpecialFunctions.NonIntegrable

/-! Second moments of the multivariate Student-t law. -/

namespace BMI.Samplers

open MeasureTheory ProbabilityTheory

variable {d : ℕ} (loc : Fin d → ℝ) {S : Matrix (Fin d) (Fin d) ℝ} {ν : ℝ}

theorem scale_sq (hν : 0 < ν) {w : ℝ} (hw : 0 ≤ w) : (√(w / ν))⁻¹ ^ 2 = ν / w := by
  rw [inv_pow, Real.sq_sqrt (by positivity), inv_div]

theorem measurable_scale (ν : ℝ) : Measurable fun w : ℝ => (√(w / ν))⁻¹ := by fun_prop

theorem lintegral_chiSquared (ν : ℝ) {f : ℝ → ENNReal} (hf : Measurable f) :
    ∫⁻ w, f w ∂(chiSquared ν) = ∫⁻ w in Set.Ioi 0, gammaPDF (ν / 2) (1 / 2) w * f w := by
  have mg : Measurable (gammaPDF (ν / 2) (1 / 2)) := (measurable_gammaPDFReal _ _).ennreal_ofReal
  unfold chiSquared gammaMeasure
  rw [lintegral_withDensity_eq_lintegral_mul _ mg hf, ← lintegral_indicator measurableSet_Ioi]
  refine lintegral_congr_ae ?_
  have h0 : ∀ᵐ w : ℝ, w ≠ 0 := by
    rw [ae_iff]
    simp
  filter_upwards [h0] with w hw
  by_cases h : 0 < w
  · rw [Set.indicator_of_mem (Set.mem_Ioi.2 h)]
    rfl
  · rw [Set.indicator_of_notMem (by simpa using h), Pi.mul_apply,
      gammaPDF_of_neg (lt_of_le_of_ne (not_lt.1 h) hw), zero_mul]

/-- `E[ν / W]` for more than two degrees of freedom. -/
theorem lintegral_scale (hν : 2 < ν) :
    ∫⁻ w, ENNReal.ofReal ((√(w / ν))⁻¹ ^ 2) ∂(chiSquared ν) = ENNReal.ofReal (ν / (ν - 2)) := by
  have h2 : 0 < ν - 2 := by linarith
  have h3 : 0 < ν / 2 - 1 := by linarith
  rw [lintegral_chiSquared ν (by fun_prop)]
  have key : ∀ w ∈ Set.Ioi (0 : ℝ), gammaPDF (ν / 2) (1 / 2) w * ENNReal.ofReal ((√(w / ν))⁻¹ ^ 2)
      = ENNReal.ofReal (ν / (ν - 2)) * (gammaPDF (ν / 2 - 1) (1 / 2) w) := by
    intro w hw
    have hw : 0 < w := hw
    rw [scale_sq (by linarith) hw.le, gammaPDF, gammaPDF, ← ENNReal.ofReal_mul (gammaPDFReal_nonneg (by linarith) (by norm_num) w),
      ← ENNReal.ofReal_mul (by positivity)]
    congr 1
    unfold gammaPDFReal
    rw [if_pos hw.le, if_pos hw.le]
    have g : Real.Gamma (ν / 2) = (ν / 2 - 1) * Real.Gamma (ν / 2 - 1) := by
      rw [← Real.Gamma_add_one h3.ne']
      congr 1
      ring
    have r : w ^ (ν / 2 - 1) = w ^ (ν / 2 - 1 - 1) * w := by
      rw [← Real.rpow_add_one hw.ne']
      congr 1
      ring
    have q : (1 / 2 : ℝ) ^ (ν / 2) = (1 / 2 : ℝ) ^ (ν / 2 - 1) * (1 / 2) := by
      rw [← Real.rpow_add_one (by norm_num)]
      congr 1
      ring
    have := (Real.Gamma_pos_of_pos h3).ne'
    have h3' := h3.ne'
    have h2' := h2.ne'
    rw [g, r, q]
    have e : ν / 2 - 1 = (ν - 2) / 2 := by ring
    generalize Real.Gamma (ν / 2 - 1) = G at *
    generalize w ^ (ν / 2 - 1 - 1) = A at *
    generalize (1 / 2 : ℝ) ^ (ν / 2 - 1) = B at *
    rw [e]
    field_simp
  have mg : Measurable (gammaPDF (ν / 2 - 1) (1 / 2)) := (measurable_gammaPDFReal _ _).ennreal_ofReal
  rw [setLIntegral_congr_fun measurableSet_Ioi key, lintegral_const_mul _ mg]
  have := lintegral_chiSquared (ν - 2) (f := fun _ => 1) measurable_const
  have hc : ∫⁻ _, 1 ∂(chiSquared (ν - 2)) = 1 := by
    haveI : IsProbabilityMeasure (chiSquared (ν - 2)) :=
      isProbabilityMeasure_gammaMeasure (by linarith) (by norm_num)
    simp
  rw [hc] at this
  simp only [mul_one] at this
  rw [show ν / 2 - 1 = (ν - 2) / 2 by ring, ← this, mul_one]

/-- `E[ν / W]` is infinite for at most two degrees of freedom. -/
theorem lintegral_scale_top (h0 : 0 < ν) (hν : ν ≤ 2) :
    ∫⁻ w, ENNReal.ofReal ((√(w / ν))⁻¹ ^ 2) ∂(chiSquared ν) = ⊤ := by
  rw [lintegral_chiSquared ν (by fun_prop)]
  by_contra hfin
  let K : ℝ := (1 / 2 : ℝ) ^ (ν / 2) / Real.Gamma (ν / 2) * Real.exp (-(1 / 2)) * ν
  have hG := Real.Gamma_pos_of_pos (s := ν / 2) (by linarith)
  have hK : 0 < K := by positivity
  have hle : ∫⁻ w in Set.Ioc (0 : ℝ) 1, ENNReal.ofReal (K * w⁻¹) < ⊤ := by
    refine lt_of_le_of_lt ?_ (lt_top_iff_ne_top.2 hfin)
    refine le_trans (setLIntegral_mono' measurableSet_Ioc fun w hw => ?_)
      (lintegral_mono_set (Set.Ioc_subset_Ioi_self : Set.Ioc (0 : ℝ) 1 ⊆ Set.Ioi 0))
    have hw0 : 0 < w := hw.1
    rw [scale_sq h0 hw0.le, gammaPDF, ← ENNReal.ofReal_mul (gammaPDFReal_nonneg (by linarith) (by norm_num) w)]
    refine ENNReal.ofReal_le_ofReal ?_
    unfold gammaPDFReal
    rw [if_pos hw0.le]
    have e1 : 1 ≤ w ^ (ν / 2 - 1) := Real.one_le_rpow_of_pos_of_le_one_of_nonpos hw0 hw.2 (by linarith)
    have e2 : Real.exp (-(1 / 2)) ≤ Real.exp (-(1 / 2 * w)) := Real.exp_le_exp.2 (by linarith [hw.2])
    have c : 0 ≤ (1 / 2 : ℝ) ^ (ν / 2) / Real.Gamma (ν / 2) := by positivity
    have : K * w⁻¹ = (1 / 2 : ℝ) ^ (ν / 2) / Real.Gamma (ν / 2) * 1 * Real.exp (-(1 / 2)) * (ν / w) := by
      simp only [K]
      ring
    rw [this]
    gcongr
  have hint : IntegrableOn (fun w : ℝ => K * w⁻¹) (Set.Ioc 0 1) := by
    refine ⟨by fun_prop, ?_⟩
    rw [hasFiniteIntegral_iff_ofReal]
    · exact hle
    · refine (ae_restrict_iff' measurableSet_Ioc).2 (.of_forall fun w hw => ?_)
      have := hw.1
      show 0 ≤ K * w⁻¹
      positivity
  have h1 : IntervalIntegrable (fun w : ℝ => w⁻¹) volume 0 1 := by
    rw [intervalIntegrable_iff_integrableOn_Ioc_of_le zero_le_one]
    have := hint.const_mul K⁻¹
    refine this.congr (.of_forall fun w => ?_)
    show K⁻¹ * (K * w⁻¹) = w⁻¹
    rw [← mul_assoc, inv_mul_cancel₀ hK.ne', one_mul]
  rw [intervalIntegrable_inv_iff] at h1
  simp at h1

theorem normalLaw_memLp (i : Fin d) : MemLp (fun z : Fin d → ℝ => z i) 2 (normalLaw 0 S) := by
  unfold normalLaw
  have ho : Measurable (WithLp.ofLp : EuclideanSpace ℝ (Fin d) → Fin d → ℝ) := by fun_prop
  rw [memLp_map_measure_iff (measurable_pi_apply i).aestronglyMeasurable ho.aemeasurable]
  exact (EuclideanSpace.proj (𝕜 := ℝ) i).comp_memLp' IsGaussian.memLp_two_id

theorem normalLaw_integral (i : Fin d) : ∫ z, z i ∂(normalLaw 0 S) = 0 := by
  unfold normalLaw
  have ho : Measurable (WithLp.ofLp : EuclideanSpace ℝ (Fin d) → Fin d → ℝ) := by fun_prop
  rw [integral_map ho.aemeasurable (measurable_pi_apply i).aestronglyMeasurable]
  have h := (EuclideanSpace.proj (𝕜 := ℝ) i).integral_comp_comm
    (IsGaussian.integrable_id (μ := multivariateGaussian (WithLp.toLp 2 (0 : Fin d → ℝ)) S))
  simp only [id] at h
  refine h.trans ?_
  rw [integral_id_multivariateGaussian]
  simp

theorem normalLaw_integral_mul (h : S.PosSemidef) (i j : Fin d) : ∫ z, z i * z j ∂(normalLaw 0 S) = S i j := by
  have hc := covariance_eval_multivariateGaussian (μ := WithLp.toLp 2 (0 : Fin d → ℝ)) h i j
  have ho : Measurable (WithLp.ofLp : EuclideanSpace ℝ (Fin d) → Fin d → ℝ) := by fun_prop
  have hi := normalLaw_integral (S := S) i
  have hj := normalLaw_integral (S := S) j
  unfold normalLaw at hi hj ⊢
  rw [integral_map ho.aemeasurable (measurable_pi_apply i).aestronglyMeasurable] at hi
  rw [integral_map ho.aemeasurable (measurable_pi_apply j).aestronglyMeasurable] at hj
  have hij : Measurable fun z : Fin d → ℝ => z i * z j := (measurable_pi_apply i).mul (measurable_pi_apply j)
  rw [integral_map ho.aemeasurable hij.aestronglyMeasurable]
  rw [covariance, hi, hj] at hc
  simpa using hc

private theorem chi_prob (hν : 0 < ν) : IsProbabilityMeasure (chiSquared ν) :=
  isProbabilityMeasure_gammaMeasure (by linarith) (by norm_num)

theorem scale_memLp (hν : 2 < ν) : MemLp (fun w : ℝ => (√(w / ν))⁻¹) 2 (chiSquared ν) := by
  rw [memLp_two_iff_integrable_sq (by fun_prop)]
  refine ⟨by fun_prop, ?_⟩
  rw [hasFiniteIntegral_iff_ofReal (.of_forall fun w => by positivity), lintegral_scale hν]
  exact ENNReal.ofReal_lt_top

theorem integral_scale (hν : 2 < ν) : ∫ w, (√(w / ν))⁻¹ ^ 2 ∂(chiSquared ν) = ν / (ν - 2) := by
  rw [integral_eq_lintegral_of_nonneg_ae (.of_forall fun w => by positivity) (by fun_prop), lintegral_scale hν,
    ENNReal.toReal_ofReal (div_nonneg (by linarith) (by linarith))]

/-- The location is the mean. -/
theorem studentLaw_memLp (hν : 2 < ν) (i : Fin d) : MemLp (fun z : Fin d → ℝ => z i) 2 (studentLaw loc S ν) := by
  haveI := chi_prob (ν := ν) (by linarith)
  have hm := measurable_studentMap loc ν
  unfold studentLaw
  rw [memLp_map_measure_iff (measurable_pi_apply i).aestronglyMeasurable hm.aemeasurable]
  have hp : MemLp (fun p : ℝ × (Fin d → ℝ) => (√(p.1 / ν))⁻¹ * p.2 i) 2 ((chiSquared ν).prod (normalLaw 0 S)) := by
    rw [memLp_two_iff_integrable_sq (by fun_prop)]
    have := ((scale_memLp hν).integrable_sq).mul_prod ((normalLaw_memLp (S := S) i).integrable_sq)
    refine this.congr (.of_forall fun p => ?_)
    simp only [mul_pow]
  exact (memLp_const (loc i)).add hp

theorem studentLaw_mean (hν : 2 < ν) (i : Fin d) : ∫ z, z i ∂(studentLaw loc S ν) = loc i := by
  haveI := chi_prob (ν := ν) (by linarith)
  have hm := measurable_studentMap loc ν
  unfold studentLaw
  rw [integral_map hm.aemeasurable (measurable_pi_apply i).aestronglyMeasurable]
  have hi : Integrable (fun p : ℝ × (Fin d → ℝ) => (√(p.1 / ν))⁻¹ * p.2 i) ((chiSquared ν).prod (normalLaw 0 S)) :=
    ((scale_memLp hν).integrable one_le_two).mul_prod ((normalLaw_memLp (S := S) i).integrable one_le_two)
  show ∫ p : ℝ × (Fin d → ℝ), loc i + (√(p.1 / ν))⁻¹ * p.2 i ∂_ = loc i
  rw [integral_add (integrable_const _) hi, integral_prod_mul (fun w : ℝ => (√(w / ν))⁻¹) (fun z : Fin d → ℝ => z i),
    normalLaw_integral]
  simp

/-- The covariance is `ν / (ν - 2)` times the dispersion. -/
theorem studentLaw_covariance (h : S.PosSemidef) (hν : 2 < ν) (i j : Fin d) :
    cov[fun z => z i, fun z => z j; studentLaw loc S ν] = ν / (ν - 2) * S i j := by
  haveI := chi_prob (ν := ν) (by linarith)
  have hm := measurable_studentMap loc ν
  rw [covariance, studentLaw_mean loc hν, studentLaw_mean loc hν]
  unfold studentLaw
  rw [integral_map hm.aemeasurable (by fun_prop)]
  have e : ∀ p : ℝ × (Fin d → ℝ), ((loc + (√(p.1 / ν))⁻¹ • p.2) i - loc i) * ((loc + (√(p.1 / ν))⁻¹ • p.2) j - loc j)
      = (√(p.1 / ν))⁻¹ ^ 2 * (p.2 i * p.2 j) := by
    intro p
    simp only [Pi.add_apply, Pi.smul_apply, smul_eq_mul]
    ring
  simp only [e]
  rw [integral_prod_mul (fun w : ℝ => (√(w / ν))⁻¹ ^ 2) (fun z : Fin d → ℝ => z i * z j), integral_scale hν,
    normalLaw_integral_mul h]

/-- With at most two degrees of freedom no coordinate has a variance. -/
theorem studentLaw_not_memLp (h : S.PosDef) (h0 : 0 < ν) (hν : ν ≤ 2) (i : Fin d) :
    ¬ MemLp (fun z : Fin d → ℝ => z i) 2 (studentLaw loc S ν) := by
  haveI := chi_prob h0
  intro hc
  have hm := measurable_studentMap loc ν
  unfold studentLaw at hc
  rw [memLp_map_measure_iff (measurable_pi_apply i).aestronglyMeasurable hm.aemeasurable] at hc
  have hp : MemLp (fun p : ℝ × (Fin d → ℝ) => (√(p.1 / ν))⁻¹ * p.2 i) 2 ((chiSquared ν).prod (normalLaw 0 S)) := by
    refine (hc.sub (memLp_const (loc i))).ae_eq (.of_forall fun p => ?_)
    simp
  have hs := hp.integrable_sq.2
  rw [hasFiniteIntegral_iff_ofReal (.of_forall fun p => by positivity)] at hs
  have e : ∀ p : ℝ × (Fin d → ℝ), ENNReal.ofReal (((√(p.1 / ν))⁻¹ * p.2 i) ^ 2)
      = ENNReal.ofReal ((√(p.1 / ν))⁻¹ ^ 2) * ENNReal.ofReal (p.2 i ^ 2) := by
    intro p
    rw [mul_pow, ENNReal.ofReal_mul (by positivity)]
  simp only [e] at hs
  rw [lintegral_prod_mul (f := fun w : ℝ => ENNReal.ofReal ((√(w / ν))⁻¹ ^ 2))
    (g := fun z : Fin d → ℝ => ENNReal.ofReal (z i ^ 2)) (by fun_prop)
    ((measurable_pi_apply i).pow_const 2).ennreal_ofReal.aemeasurable, lintegral_scale_top h0 hν] at hs
  have hz : ∫⁻ z, ENNReal.ofReal (z i ^ 2) ∂(normalLaw 0 S) = ENNReal.ofReal (S i i) := by
    rw [← ofReal_integral_eq_lintegral_ofReal (normalLaw_memLp (S := S) i).integrable_sq
      (.of_forall fun z => by positivity), ← normalLaw_integral_mul h.posSemidef i i]
    simp only [sq]
  rw [hz, ENNReal.top_mul (by simpa using h.diag_pos)] at hs
  exact lt_irrefl _ hs

end BMI.Samplers
