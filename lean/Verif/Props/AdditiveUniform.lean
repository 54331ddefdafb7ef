import Verif.Lemmas.Additive
import Verif.Lemmas.OneDim
import Verif.Lemmas.IdealWitness
import Verif.Props.SamplerShapes
import Mathlib.MeasureTheory.Integral.IntervalIntegral.FundThmCalculus
import Mathlib.Analysis.SpecialFunctions.Log.NegMulLog

/-! Property C04 (additive uniform noise), over /repo/src/bmi/samplers/_additive_uniform.py. -/

namespace BMI.Samplers

open MeasureTheory

variable {Key : Type}

theorem uniformLaw_density (lo hi : ℝ) :
    uniformLaw lo hi = volume.withDensity ((Set.Icc lo hi).indicator fun _ => ENNReal.ofReal (1 / (hi - lo))) := by
  rw [withDensity_indicator measurableSet_Icc, withDensity_const]
  rfl

/-- Length of `[0, 1] ∩ [y - ε, y + ε]`. -/
noncomputable def overlap (e y : ℝ) : ℝ := max 0 (min 1 (y + e) - max 0 (y - e))

theorem continuous_overlap (e : ℝ) : Continuous (overlap e) := by unfold overlap; fun_prop

theorem overlap_nonneg (e y : ℝ) : 0 ≤ overlap e y := le_max_left _ _

theorem volume_overlap (e y : ℝ) : volume (Set.Icc 0 1 ∩ Set.Icc (y - e) (y + e)) = ENNReal.ofReal (overlap e y) := by
  rw [Set.Icc_inter_Icc, Real.volume_Icc, overlap, ENNReal.ofReal_max]
  simp

theorem integral_mul_log (m : ℝ) (hm : 0 ≤ m) :
    ∫ t in (0 : ℝ)..m, t * Real.log t = m ^ 2 / 2 * Real.log m - m ^ 2 / 4 := by
  have h := intervalIntegral.integral_eq_sub_of_hasDerivAt_of_le hm
    (f := fun t => t * (t * Real.log t) / 2 - t ^ 2 / 4) (f' := fun t => t * Real.log t)
    (by
      have := Real.continuous_mul_log
      fun_prop)
    (fun t ht => by
      have h0 : t ≠ 0 := ht.1.ne'
      have h1 := ((hasDerivAt_id t).mul ((hasDerivAt_id t).mul (Real.hasDerivAt_log h0))).div_const 2
      have h2 := (hasDerivAt_pow 2 t).div_const 4
      refine (h1.sub h2).congr_deriv ?_
      simp
      field_simp
      ring)
    (Real.continuous_mul_log.intervalIntegrable _ _)
  rw [h]
  simp
  ring

theorem integral_overlap (e : ℝ) (he : 0 < e) :
    ∫ y, overlap e y * Real.log (overlap e y)
      = (1 + 2 * e - min 1 (2 * e)) * (min 1 (2 * e) * Real.log (min 1 (2 * e))) - (min 1 (2 * e)) ^ 2 / 2 := by
  set m := min 1 (2 * e) with hm
  have hm0 : 0 ≤ m := le_min (by norm_num) (by linarith)
  have hm1 : m ≤ 1 := min_le_left _ _
  have hm2 : m ≤ 2 * e := min_le_right _ _
  have hcont : Continuous fun y => overlap e y * Real.log (overlap e y) :=
    Real.continuous_mul_log.comp (continuous_overlap e)
  have hsupp : Function.support (fun y => overlap e y * Real.log (overlap e y)) ⊆ Set.Ioc (-e) (1 + e) := by
    intro y hy
    by_contra hc
    apply hy
    have : overlap e y = 0 := by
      unfold overlap
      rw [max_eq_left]
      rw [Set.mem_Ioc, not_and_or, not_lt, not_le] at hc
      rcases hc with hc | hc
      · have := min_le_right 1 (y + e)
        have := le_max_left 0 (y - e)
        linarith
      · have := min_le_left 1 (y + e)
        have := le_max_right 0 (y - e)
        linarith
    simp [this]
  rw [← intervalIntegral.integral_eq_integral_of_support_subset hsupp,
    ← intervalIntegral.integral_add_adjacent_intervals (b := m - e) (hcont.intervalIntegrable _ _)
      (hcont.intervalIntegrable _ _),
    ← intervalIntegral.integral_add_adjacent_intervals (a := m - e) (b := 1 + e - m) (hcont.intervalIntegrable _ _)
      (hcont.intervalIntegrable _ _)]
  have i1 : ∫ y in (-e)..(m - e), overlap e y * Real.log (overlap e y) = ∫ t in (0 : ℝ)..m, t * Real.log t := by
    have : ∫ y in (-e)..(m - e), overlap e y * Real.log (overlap e y)
        = ∫ y in (-e)..(m - e), (y + e) * Real.log (y + e) := by
      refine intervalIntegral.integral_congr fun y hy => ?_
      rw [Set.uIcc_of_le (by linarith)] at hy
      have : overlap e y = y + e := by
        unfold overlap
        rw [min_eq_right (by linarith [hy.2]), max_eq_left (by linarith [hy.2] : y - e ≤ 0), max_eq_right (by linarith [hy.1])]
        ring
      simp only [this]
    rw [this, intervalIntegral.integral_comp_add_right (fun t => t * Real.log t)]
    simp
  have i3 : ∫ y in (1 + e - m)..(1 + e), overlap e y * Real.log (overlap e y) = ∫ t in (0 : ℝ)..m, t * Real.log t := by
    have : ∫ y in (1 + e - m)..(1 + e), overlap e y * Real.log (overlap e y)
        = ∫ y in (1 + e - m)..(1 + e), (1 + e - y) * Real.log (1 + e - y) := by
      refine intervalIntegral.integral_congr fun y hy => ?_
      rw [Set.uIcc_of_le (by linarith)] at hy
      have : overlap e y = 1 + e - y := by
        unfold overlap
        rw [min_eq_left (by linarith [hy.1]), max_eq_right (by linarith [hy.1] : 0 ≤ y - e), max_eq_right (by linarith [hy.2])]
        ring
      simp only [this]
    rw [this, intervalIntegral.integral_comp_sub_left (fun t => t * Real.log t)]
    simp
  have i2 : ∫ y in (m - e)..(1 + e - m), overlap e y * Real.log (overlap e y)
      = (1 + 2 * e - 2 * m) * (m * Real.log m) := by
    have hle : m - e ≤ 1 + e - m := by linarith
    have : ∫ y in (m - e)..(1 + e - m), overlap e y * Real.log (overlap e y)
        = ∫ y in (m - e)..(1 + e - m), m * Real.log m := by
      refine intervalIntegral.integral_congr fun y hy => ?_
      rw [Set.uIcc_of_le hle] at hy
      have : overlap e y = m := by
        unfold overlap
        rcases le_total 1 (2 * e) with h | h
        · have hm' : m = 1 := by rw [hm, min_eq_left h]
          rw [min_eq_left (by linarith [hy.1]), max_eq_left (by linarith [hy.2] : y - e ≤ 0), hm', max_eq_right (by norm_num)]
          norm_num
        · have hm' : m = 2 * e := by rw [hm, min_eq_right h]
          rw [min_eq_right (by linarith [hy.2]), max_eq_right (by linarith [hy.1] : 0 ≤ y - e), hm', max_eq_right (by linarith)]
          ring
      simp only [this]
    rw [this, intervalIntegral.integral_const, smul_eq_mul]
    ring
  rw [i1, i2, i3, integral_mul_log m hm0]
  ring

/-- The law the class documents: `X` uniform on `[0, 1]`, `Y = X + N`, `N` uniform on `[-ε, ε]`. -/
noncomputable def uniformNoiseLaw (e : ℝ) : Measure (ℝ × ℝ) := additiveLaw (uniformLaw 0 1) (uniformLaw (-e) e)

theorem uniformNoiseLaw_mi (e : ℝ) (he : 0 < e) :
    mutualInfo (uniformNoiseLaw e) = ENNReal.ofReal (additiveMI e) ∧ 0 ≤ additiveMI e := by
  have pu : IsProbabilityMeasure (uniformLaw 0 1) := isProbabilityMeasure_uniformLaw (by norm_num)
  have pn : IsProbabilityMeasure (uniformLaw (-e) e) := isProbabilityMeasure_uniformLaw (by linarith)
  have hP : IsProbabilityMeasure (uniformNoiseLaw e) := by unfold uniformNoiseLaw; infer_instance
  set c := 1 / (2 * e) with hc
  have hc0 : 0 < c := by positivity
  let a : ℝ → ℝ := (Set.Icc 0 1).indicator fun _ => 1
  let v : ℝ → ℝ := (Set.Icc (-e) e).indicator fun _ => c
  have ha : Measurable a := measurable_const.indicator measurableSet_Icc
  have hv : Measurable v := measurable_const.indicator measurableSet_Icc
  have ha0 : ∀ x, 0 ≤ a x := fun x => Set.indicator_nonneg (fun _ _ => zero_le_one) x
  have hv0 : ∀ x, 0 ≤ v x := fun x => Set.indicator_nonneg (fun _ _ => hc0.le) x
  have ea : uniformLaw 0 1 = volume.withDensity fun x => ENNReal.ofReal (a x) := by
    rw [uniformLaw_density]
    congr 1
    funext x
    simp only [a, Set.indicator_apply]
    split_ifs <;> simp
  have ev : uniformLaw (-e) e = volume.withDensity fun x => ENNReal.ofReal (v x) := by
    rw [uniformLaw_density]
    congr 1
    funext x
    simp only [v, Set.indicator_apply]
    split_ifs
    · rw [hc]; congr 2; ring
    · simp
  have hdens : uniformNoiseLaw e
      = (volume.prod volume).withDensity fun z => ENNReal.ofReal (a z.1 * v (z.2 - z.1)) := by
    unfold uniformNoiseLaw
    have i1 : SFinite ((volume : Measure ℝ).withDensity fun x => ENNReal.ofReal (a x)) := by rw [← ea]; infer_instance
    have i2 : SFinite ((volume : Measure ℝ).withDensity fun x => ENNReal.ofReal (v x)) := by rw [← ev]; infer_instance
    rw [ea, ev, additiveLaw_density _ _ _ ha.ennreal_ofReal hv.ennreal_ofReal]
    congr 1
    funext z
    rw [ENNReal.ofReal_mul (ha0 _)]
  have hfst : (uniformNoiseLaw e).fst = volume.withDensity fun x => ENNReal.ofReal (a x) := by
    unfold uniformNoiseLaw
    rw [additiveLaw_fst, ea]
  have hsnd : (uniformNoiseLaw e).snd = volume.withDensity fun y => ENNReal.ofReal (c * overlap e y) := by
    rw [hdens, snd_withDensity _ _ _ (by fun_prop)]
    congr 1
    funext y
    have : ∀ x, ENNReal.ofReal (a x * v (y - x))
        = (Set.Icc 0 1 ∩ Set.Icc (y - e) (y + e)).indicator (fun _ => ENNReal.ofReal c) x := by
      intro x
      simp only [a, v, Set.indicator_apply, Set.mem_inter_iff, Set.mem_Icc]
      by_cases h1 : 0 ≤ x ∧ x ≤ 1
      · by_cases h2 : y - e ≤ x ∧ x ≤ y + e
        · rw [if_pos h1, if_pos ⟨by linarith [h2.2], by linarith [h2.1]⟩, if_pos ⟨h1, h2⟩, one_mul]
        · rw [if_pos h1, if_neg (fun h => h2 ⟨by linarith [h.2], by linarith [h.1]⟩), if_neg (fun h => h2 h.2)]
          simp
      · rw [if_neg h1, zero_mul, if_neg (fun h => h1 h.1)]
        simp
    simp only [this]
    rw [lintegral_indicator_const (measurableSet_Icc.inter measurableSet_Icc), volume_overlap,
      ENNReal.ofReal_mul hc0.le]
  have hov : Measurable (overlap e) := (continuous_overlap e).measurable
  have hov' : Measurable fun y => Real.log (overlap e y) := hov.log
  -- the log-ratio is `- log (overlap)` almost surely
  have hmem : ∀ᵐ z ∂(uniformNoiseLaw e), a z.1 * v (z.2 - z.1) ≠ 0 := by
    rw [hdens, ae_withDensity_iff (by fun_prop)]
    refine Filter.Eventually.of_forall fun z hz h => hz ?_
    rw [h, ENNReal.ofReal_zero]
  have hlog : (fun z : ℝ × ℝ => Real.log (a z.1 * v (z.2 - z.1) / (a z.1 * (c * overlap e z.2))))
      =ᵐ[uniformNoiseLaw e] fun z => -Real.log (overlap e z.2) := by
    filter_upwards [hmem] with z hz
    have h1 : a z.1 ≠ 0 := left_ne_zero_of_mul hz
    have h2 : v (z.2 - z.1) ≠ 0 := right_ne_zero_of_mul hz
    have h3 : v (z.2 - z.1) = c := by
      have := Set.mem_of_indicator_ne_zero h2
      exact Set.indicator_of_mem this _
    rw [h3, mul_div_mul_left _ _ h1, div_mul_cancel_left₀ hc0.ne', Real.log_inv]
  -- its integral
  have hcont : Continuous fun y => overlap e y * Real.log (overlap e y) :=
    Real.continuous_mul_log.comp (continuous_overlap e)
  have hzero : ∀ y, y ∉ Set.Icc (-e) (1 + e) → overlap e y = 0 := by
    intro y hy
    unfold overlap
    rw [max_eq_left]
    rw [Set.mem_Icc, not_and_or, not_le, not_le] at hy
    rcases hy with hc | hc
    · have := min_le_right 1 (y + e)
      have := le_max_left 0 (y - e)
      linarith
    · have := min_le_left 1 (y + e)
      have := le_max_right 0 (y - e)
      linarith
  have hcs : HasCompactSupport fun y => overlap e y * Real.log (overlap e y) :=
    HasCompactSupport.intro (isCompact_Icc (a := -e) (b := 1 + e)) fun y hy => by simp [hzero y hy]
  have hintv : Integrable (fun y => overlap e y * Real.log (overlap e y)) := hcont.integrable_of_hasCompactSupport hcs
  have hdm : Measurable fun y => (c * overlap e y).toNNReal := by fun_prop
  have hsnd' : (uniformNoiseLaw e).snd = volume.withDensity fun y => ((c * overlap e y).toNNReal : ENNReal) := hsnd
  have hcoe : ∀ y, ((c * overlap e y).toNNReal : ℝ) = c * overlap e y := fun y =>
    Real.coe_toNNReal _ (mul_nonneg hc0.le (overlap_nonneg e y))
  have hint2 : Integrable (fun y => -Real.log (overlap e y)) (uniformNoiseLaw e).snd := by
    rw [hsnd', integrable_withDensity_iff_integrable_smul hdm]
    have : (fun y => (c * overlap e y).toNNReal • -Real.log (overlap e y))
        = fun y => -c * (overlap e y * Real.log (overlap e y)) := by
      funext y
      rw [NNReal.smul_def, hcoe, smul_eq_mul]
      ring
    rw [this]
    exact hintv.const_mul _
  have hval2 : ∫ y, -Real.log (overlap e y) ∂(uniformNoiseLaw e).snd = additiveMI e := by
    rw [hsnd', integral_withDensity_eq_integral_smul hdm]
    have : (fun y => (c * overlap e y).toNNReal • -Real.log (overlap e y))
        = fun y => -c * (overlap e y * Real.log (overlap e y)) := by
      funext y
      rw [NNReal.smul_def, hcoe, smul_eq_mul]
      ring
    rw [this, integral_const_mul, integral_overlap e he, hc]
    unfold additiveMI
    split_ifs with h
    · rw [min_eq_left (by norm_num at h; linarith)]
      simp
      field_simp
      norm_num
    · rw [min_eq_right (by norm_num at h; linarith)]
      field_simp
      ring
  have hmp : Measurable (Prod.snd : ℝ × ℝ → ℝ) := measurable_snd
  have hint3 : Integrable (fun z : ℝ × ℝ => -Real.log (overlap e z.2)) (uniformNoiseLaw e) :=
    (integrable_map_measure (hov'.neg.aestronglyMeasurable) hmp.aemeasurable).1 hint2
  have hval3 : ∫ z, -Real.log (overlap e z.2) ∂(uniformNoiseLaw e) = additiveMI e := by
    rw [← hval2]
    exact (integral_map hmp.aemeasurable hov'.neg.aestronglyMeasurable).symm
  have main := mutualInfo_of_density volume volume (uniformNoiseLaw e) (fun z => a z.1 * v (z.2 - z.1)) a
    (fun y => c * overlap e y) (by fun_prop) ha (hov.const_mul c) (fun z => mul_nonneg (ha0 _) (hv0 _)) ha0
    (fun y => mul_nonneg hc0.le (overlap_nonneg e y)) hdens hfst hsnd
    ((integrable_congr hlog).2 hint3)
  rw [integral_congr_ae hlog, hval3] at main
  exact main

/-- **C04**: for `epsilon > 0` the sampler is correct: `sample` returns independent draws of `(X, X + N)` with `X`
uniform on `[0, 1]` and `N` uniform on `[-epsilon, epsilon]`, and the reported number is their mutual information. -/
theorem additiveUniform_correct [MeasurableSpace Key] (R : JaxRandom Key) (κ : Measure Key) (hR : IdealRandom R κ)
    (e : ℝ) (he : 0 < e) :
    ∃ s, additiveUniform R e = .ok s ∧ Correct R κ s 1 1 (liftPair (uniformNoiseLaw e)) := by
  have pk := hR.prob
  have pu : IsProbabilityMeasure (uniformLaw 0 1) := isProbabilityMeasure_uniformLaw (by norm_num)
  have pn : IsProbabilityMeasure (uniformLaw (-e) e) := isProbabilityMeasure_uniformLaw (by linarith)
  have hP : IsProbabilityMeasure (uniformNoiseLaw e) := by unfold uniformNoiseLaw; infer_instance
  obtain ⟨hmi, h0⟩ := uniformNoiseLaw_mi e he
  obtain ⟨s, hs⟩ : ∃ s, additiveUniform R e = .ok s := by
    unfold additiveUniform
    rw [if_neg (not_le.2 he)]
    exact ⟨_, rfl⟩
  have hw := additiveUniform_wellShaped R e s hs
  have hs' := hs
  unfold additiveUniform at hs'
  rw [if_neg (not_le.2 he)] at hs'
  obtain rfl := Except.ok.inj hs'
  refine ⟨_, hs, inferInstance, hw, fun n z => rfl, fun n => ?_, h0, ?_⟩
  · obtain ⟨m1, l1⟩ := hR.uniform n 1 0 1 (by norm_num)
    obtain ⟨m2, l2⟩ := hR.uniform n 1 (-e) e (by linarith)
    obtain ⟨hm, hl⟩ := two_draws hR.split _ _ n _ _ m1 m2 l1 l2 (fun z => (z.1, z.1 + z.2)) measurable_shear
    refine ⟨_, hm, fun k => ?_, hl⟩
    simp only [castToRng]
    have e : ∀ (x : Fin n → Fin 1 → ℝ), x = fun i => single (x i 0) := by
      intro x
      funext i j
      rw [Subsingleton.elim j 0]
      rfl
    rw [e (R.uniform _ n 1 0 1), e (fun i j => _ + _)]
    rfl
  · rw [mutualInfo_liftPair]
    exact hmi

example : ∃ s, additiveUniform tree 0.75 = .ok s ∧
    Correct tree treeLaw s 1 1 (liftPair (uniformNoiseLaw 0.75)) :=
  additiveUniform_correct tree treeLaw tree_ideal 0.75 (by norm_num)

/-- **C04**: non-positive `epsilon` is rejected. -/
theorem additiveUniform_rejects (R : JaxRandom Key) (e : ℝ) (he : e ≤ 0) :
    additiveUniform R e = .error .valueError := by
  unfold additiveUniform
  rw [if_pos he]

example : additiveUniform tree 0 = .error .valueError := additiveUniform_rejects _ _ le_rfl

end BMI.Samplers
