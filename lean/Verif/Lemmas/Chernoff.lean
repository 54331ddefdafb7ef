import Verif.Lemmas.BmmPmi
import Mathlib.MeasureTheory.Integral.Pi
import Mathlib.MeasureTheory.Integral.Bochner.Set
import Mathlib.MeasureTheory.Function.L2Space

/-! Exponential bounds for means of log-likelihood ratios. -/

namespace BMI.Chernoff

open MeasureTheory

variable {Z : Type} [MeasurableSpace Z] {P Q : Measure Z} {w : Z → EReal}

/-- The affinity of `P`, which has the density `exp w` with respect to `Q`, and `Q`. -/
noncomputable def affinity (Q : Measure Z) (w : Z → EReal) : ℝ := ∫ z, √((w z).exp.toReal) ∂Q

section

variable [IsProbabilityMeasure P] [IsProbabilityMeasure Q]

theorem finite_density (hm : AEMeasurable (fun z => (w z).exp) Q) (hP : P = Q.withDensity fun z => (w z).exp) :
    ∀ᵐ z ∂Q, (w z).exp < ⊤ := by
  refine ae_lt_top' hm ?_
  have h := measure_univ (μ := P)
  rw [hP, withDensity_apply _ MeasurableSet.univ, setLIntegral_univ] at h
  rw [h]
  exact ENNReal.one_ne_top

theorem weight_integrable (hm : AEMeasurable (fun z => (w z).exp) Q) (hP : P = Q.withDensity fun z => (w z).exp) (f : Z → ℝ) :
    (Integrable f P ↔ Integrable (fun z => (w z).exp.toReal * f z) Q) ∧ ∫ z, f z ∂P = ∫ z, (w z).exp.toReal * f z ∂Q := by
  refine ⟨?_, ?_⟩
  · conv_lhs => rw [hP]
    exact integrable_withDensity_iff_integrable_smul₀' hm (finite_density hm hP)
  · conv_lhs => rw [hP]
    exact integral_withDensity_eq_integral_toReal_smul₀ hm (finite_density hm hP) f

/-- The density is integrable, with integral one. -/
theorem density_one (hm : AEMeasurable (fun z => (w z).exp) Q) (hP : P = Q.withDensity fun z => (w z).exp) :
    Integrable (fun z => (w z).exp.toReal) Q ∧ ∫ z, (w z).exp.toReal ∂Q = 1 := by
  obtain ⟨h1, h2⟩ := weight_integrable hm hP fun _ => 1
  simp only [mul_one, integral_const, probReal_univ, smul_eq_mul] at h1 h2
  exact ⟨h1.1 (integrable_const 1), h2.symm⟩

theorem sqrt_memLp (hm : AEMeasurable (fun z => (w z).exp) Q) (hP : P = Q.withDensity fun z => (w z).exp) :
    MemLp (fun z => √((w z).exp.toReal)) 2 Q := by
  have hs : AEStronglyMeasurable (fun z => √((w z).exp.toReal)) Q := (Real.continuous_sqrt.measurable.comp_aemeasurable hm.ennreal_toReal).aestronglyMeasurable
  rw [memLp_two_iff_integrable_sq hs]
  simp only [Real.sq_sqrt ENNReal.toReal_nonneg]
  exact (density_one hm hP).1

/-- Combinations of the density and its root. -/
theorem quadratic (hm : AEMeasurable (fun z => (w z).exp) Q) (hP : P = Q.withDensity fun z => (w z).exp) (a b c : ℝ) :
    Integrable (fun z => a * (w z).exp.toReal + b * √((w z).exp.toReal) + c) Q ∧
    ∫ z, (a * (w z).exp.toReal + b * √((w z).exp.toReal) + c) ∂Q = a + b * affinity Q w + c := by
  obtain ⟨i1, i2⟩ := density_one hm hP
  have i3 : Integrable (fun z => √((w z).exp.toReal)) Q := (sqrt_memLp hm hP).integrable one_le_two
  have i4 : Integrable (fun z => a * (w z).exp.toReal + b * √((w z).exp.toReal)) Q := (i1.const_mul a).add (i3.const_mul b)
  refine ⟨i4.add (integrable_const c), ?_⟩
  rw [integral_add i4 (integrable_const c), integral_add (i1.const_mul a) (i3.const_mul b), integral_const_mul, integral_const_mul, i2]
  simp [affinity]

/-- A function which distinguishes the laws bounds their affinity. -/
theorem affinity_le (hm : AEMeasurable (fun z => (w z).exp) Q) (hP : P = Q.withDensity fun z => (w z).exp) {f : Z → ℝ}
    (hf : Measurable f) (hb : ∀ z, |f z| ≤ 1) {d : ℝ} (hd : 0 < d) (h : d ≤ |∫ z, f z ∂P - ∫ z, f z ∂Q|) :
    affinity Q w ≤ 1 - d ^ 2 / 8 := by
  have hL := sqrt_memLp hm hP
  obtain ⟨i1, i2⟩ := density_one hm hP
  have i3 : Integrable (fun z => √((w z).exp.toReal)) Q := hL.integrable one_le_two
  have hfQ : Integrable f Q := (integrable_const (1 : ℝ)).mono' hf.aestronglyMeasurable (Filter.Eventually.of_forall fun z => hb z)
  have hfP : Integrable f P := (integrable_const (1 : ℝ)).mono' hf.aestronglyMeasurable (Filter.Eventually.of_forall fun z => hb z)
  obtain ⟨j1, j2⟩ := weight_integrable hm hP f
  have j3 := j1.1 hfP
  have hc : 0 < 4 / d := by positivity
  have hsq : ∀ z, √((w z).exp.toReal) ^ 2 = (w z).exp.toReal := fun z => Real.sq_sqrt ENNReal.toReal_nonneg
  have k1 : Integrable (fun z => 4 / d * (√((w z).exp.toReal) - 1) ^ 2 / 2 + d / 4 * (√((w z).exp.toReal) + 1) ^ 2 / 2) Q := by
    have e : (fun z => 4 / d * (√((w z).exp.toReal) - 1) ^ 2 / 2 + d / 4 * (√((w z).exp.toReal) + 1) ^ 2 / 2)
        = fun z => (4 / d / 2 + d / 4 / 2) * (w z).exp.toReal + (d / 4 - 4 / d) * √((w z).exp.toReal) + (4 / d / 2 + d / 4 / 2) := by
      funext z
      rw [sub_sq, add_sq, hsq]
      ring
    rw [e]
    exact (quadratic hm hP _ _ _).1
  have k2 : ∫ z, (4 / d * (√((w z).exp.toReal) - 1) ^ 2 / 2 + d / 4 * (√((w z).exp.toReal) + 1) ^ 2 / 2) ∂Q
      = 4 / d * (1 - affinity Q w) + d / 4 * (1 + affinity Q w) := by
    have e : (fun z => 4 / d * (√((w z).exp.toReal) - 1) ^ 2 / 2 + d / 4 * (√((w z).exp.toReal) + 1) ^ 2 / 2)
        = fun z => (4 / d / 2 + d / 4 / 2) * (w z).exp.toReal + (d / 4 - 4 / d) * √((w z).exp.toReal) + (4 / d / 2 + d / 4 / 2) := by
      funext z
      rw [sub_sq, add_sq, hsq]
      ring
    rw [e, (quadratic hm hP _ _ _).2]
    ring
  have k3 : |∫ z, f z ∂P - ∫ z, f z ∂Q| ≤ 4 / d * (1 - affinity Q w) + d / 4 * (1 + affinity Q w) := by
    rw [j2, ← integral_sub j3 hfQ, ← k2]
    refine (abs_integral_le_integral_abs).trans (integral_mono (j3.sub hfQ).abs k1 fun z => ?_)
    have e : (w z).exp.toReal * f z - f z = f z * ((√((w z).exp.toReal) - 1) * (√((w z).exp.toReal) + 1)) := by
      have := hsq z
      linear_combination (-f z) * this
    show |(w z).exp.toReal * f z - f z| ≤ _
    rw [e, abs_mul, abs_mul]
    have h1 := hb z
    generalize hu : |√((w z).exp.toReal) - 1| = u
    generalize hv : |√((w z).exp.toReal) + 1| = v
    have hu0 : 0 ≤ u := hu ▸ abs_nonneg _
    have hv0 : 0 ≤ v := hv ▸ abs_nonneg _
    rw [← sq_abs (√((w z).exp.toReal) - 1), ← sq_abs (√((w z).exp.toReal) + 1), hu, hv]
    have h2 : |f z| * (u * v) ≤ u * v := by
      calc |f z| * (u * v) ≤ 1 * (u * v) := mul_le_mul_of_nonneg_right h1 (mul_nonneg hu0 hv0)
        _ = u * v := one_mul _
    refine h2.trans ?_
    have h3 : 0 ≤ (4 / d * u - v) ^ 2 * (d / 4) / 2 := by positivity
    have h4 : (4 / d * u - v) ^ 2 * (d / 4) / 2 = 4 / d * u ^ 2 / 2 + d / 4 * v ^ 2 / 2 - u * v := by
      field_simp
      ring
    linarith
  have k4 : affinity Q w ≤ 1 := by
    have h0 : 0 ≤ ∫ z, (√((w z).exp.toReal) - 1) ^ 2 ∂Q := integral_nonneg fun z => sq_nonneg _
    have e : (fun z => (√((w z).exp.toReal) - 1) ^ 2) = fun z => 1 * (w z).exp.toReal + (-2) * √((w z).exp.toReal) + 1 := by
      funext z
      rw [sub_sq, hsq]
      ring
    rw [e, (quadratic hm hP _ _ _).2] at h0
    linarith
  have k5 : d ≤ 4 / d * (1 - affinity Q w) + d / 4 * (1 + affinity Q w) := h.trans k3
  have k6 : d / 4 * (1 + affinity Q w) ≤ d / 2 := by nlinarith
  have k7 : d / 2 ≤ 4 / d * (1 - affinity Q w) := by linarith
  have k8 : d / 2 * d ≤ 4 * (1 - affinity Q w) := by
    have := mul_le_mul_of_nonneg_right k7 hd.le
    have e : 4 / d * (1 - affinity Q w) * d = 4 * (1 - affinity Q w) := by field_simp
    rwa [e] at this
  nlinarith

theorem affinity_nonneg (Q : Measure Z) (w : Z → EReal) : 0 ≤ affinity Q w := integral_nonneg fun _ => Real.sqrt_nonneg _

/-- Different laws have an affinity below one. -/
theorem affinity_lt (hm : AEMeasurable (fun z => (w z).exp) Q) (hP : P = Q.withDensity fun z => (w z).exp) (hne : P ≠ Q) : affinity Q w < 1 := by
  obtain ⟨s, hs, hsne⟩ : ∃ s, MeasurableSet s ∧ P s ≠ Q s := by
    by_contra h
    push Not at h
    exact hne (Measure.ext h)
  have h1 : P.real s ≠ Q.real s := fun h => hsne ((measureReal_eq_measureReal_iff (measure_ne_top _ _) (measure_ne_top _ _)).1 h)
  have h2 := affinity_le hm hP (f := s.indicator fun _ => 1) (measurable_const.indicator hs) (fun z => by
    by_cases h : z ∈ s <;> simp [h]) (d := |P.real s - Q.real s|) (abs_pos.2 (sub_ne_zero.2 h1)) (by
    rw [integral_indicator_const _ hs, integral_indicator_const _ hs]
    simp)
  have := pow_pos (abs_pos.2 (sub_ne_zero.2 h1)) 2
  linarith

/-- The mean of the root of the inverse ratio. -/
theorem exp_half (hm : AEMeasurable (fun z => (w z).exp) Q) (hP : P = Q.withDensity fun z => (w z).exp) :
    Integrable (fun z => Real.exp (-((w z).toReal / 2))) P ∧ ∫ z, Real.exp (-((w z).toReal / 2)) ∂P = affinity Q w := by
  obtain ⟨h1, h2⟩ := weight_integrable hm hP fun z => Real.exp (-((w z).toReal / 2))
  have e : ∀ᵐ z ∂Q, √((w z).exp.toReal) = (w z).exp.toReal * Real.exp (-((w z).toReal / 2)) := by
    filter_upwards [finite_density hm hP] with z hz
    generalize w z = a at hz ⊢
    induction a with
    | bot => simp
    | top => simp at hz
    | coe a =>
      rw [EReal.exp_coe, ENNReal.toReal_ofReal (Real.exp_pos _).le, EReal.toReal_coe, ← Real.exp_add, Real.sqrt_eq_iff_mul_self_eq (Real.exp_pos _).le
        (Real.exp_pos _).le, ← Real.exp_add]
      congr 1
      ring
  refine ⟨h1.2 (((sqrt_memLp hm hP).integrable one_le_two).congr e), ?_⟩
  rw [h2]
  exact (integral_congr_ae e).symm

/-- The mean of the inverse ratio. -/
theorem exp_one (hm : AEMeasurable (fun z => (w z).exp) Q) (hP : P = Q.withDensity fun z => (w z).exp) :
    Integrable (fun z => Real.exp (-(w z).toReal)) P ∧ ∫ z, Real.exp (-(w z).toReal) ∂P ≤ 1 := by
  obtain ⟨h1, h2⟩ := weight_integrable hm hP fun z => Real.exp (-(w z).toReal)
  have hb : ∀ᵐ z ∂Q, |(w z).exp.toReal * Real.exp (-(w z).toReal)| ≤ 1 := by
    filter_upwards [finite_density hm hP] with z hz
    generalize w z = a at hz ⊢
    induction a with
    | bot => simp
    | top => simp at hz
    | coe a =>
      rw [EReal.exp_coe, ENNReal.toReal_ofReal (Real.exp_pos _).le, EReal.toReal_coe, ← Real.exp_add]
      simp
  have hmeas : AEStronglyMeasurable (fun z => (w z).exp.toReal * Real.exp (-(w z).toReal)) Q := by
    have e : (fun z => (w z).exp.toReal * Real.exp (-(w z).toReal)) = fun z => (w z).exp.toReal * Real.exp (-(ENNReal.log (w z).exp).toReal) := by
      funext z
      rw [EReal.log_exp]
    rw [e]
    have hw : AEMeasurable (fun z => (ENNReal.log (w z).exp).toReal) Q := measurable_ereal_toReal.comp_aemeasurable (ENNReal.measurable_log.comp_aemeasurable hm)
    exact (hm.ennreal_toReal.mul (Real.measurable_exp.comp_aemeasurable hw.neg)).aestronglyMeasurable
  have i : Integrable (fun z => (w z).exp.toReal * Real.exp (-(w z).toReal)) Q := (integrable_const (1 : ℝ)).mono' hmeas hb
  refine ⟨h1.2 i, ?_⟩
  rw [h2]
  have := integral_mono_ae i (integrable_const (1 : ℝ)) (hb.mono fun z hz => (le_abs_self _).trans hz)
  simpa using this

end

/-- Markov's inequality for a product of independent factors. -/
theorem product_tail {Key : Type} [MeasurableSpace Key] {κ : Measure Key} [IsProbabilityMeasure P] {n : ℕ} {g : Z → ℝ}
    (hg : Integrable (fun z => Real.exp (g z)) P) {z : Key → Fin n → Z} (hz : MeasurePreserving z κ (Measure.pi fun _ => P)) {S : Set Key} {c : ℝ}
    (hS : ∀ k ∈ S, c ≤ ∑ i, g (z k i)) : κ S ≤ ENNReal.ofReal ((∫ z, Real.exp (g z) ∂P) ^ n * Real.exp (-c)) := by
  have hprod : ∀ x : Fin n → Z, Real.exp (∑ i, g (x i)) = ∏ i, Real.exp (g (x i)) := fun x => Real.exp_sum _ _
  have hi : Integrable (fun x : Fin n → Z => ∏ i, Real.exp (g (x i))) (Measure.pi fun _ => P) := Integrable.fintype_prod fun _ => hg
  have hI : ∫ x : Fin n → Z, ∏ i, Real.exp (g (x i)) ∂(Measure.pi fun _ => P) = (∫ z, Real.exp (g z) ∂P) ^ n := by
    rw [integral_fintype_prod_eq_pow (fun z => Real.exp (g z)), Fintype.card_fin]
  have hlint : ∫⁻ k, ENNReal.ofReal (∏ i, Real.exp (g (z k i))) ∂κ = ENNReal.ofReal ((∫ z, Real.exp (g z) ∂P) ^ n) := by
    rw [← hI, ofReal_integral_eq_lintegral_ofReal hi (Filter.Eventually.of_forall fun x => Finset.prod_nonneg fun i _ => (Real.exp_pos _).le), ← hz.map_eq,
      lintegral_map' _ hz.measurable.aemeasurable]
    rw [hz.map_eq]
    exact hi.aestronglyMeasurable.aemeasurable.ennreal_ofReal
  have hmono : ENNReal.ofReal (Real.exp c) * κ S ≤ ENNReal.ofReal ((∫ z, Real.exp (g z) ∂P) ^ n) := by
    rw [← hlint]
    have hmk : AEMeasurable (fun k => ENNReal.ofReal (∏ i, Real.exp (g (z k i)))) κ := by
      have := hi.aestronglyMeasurable.aemeasurable.ennreal_ofReal
      rw [← hz.map_eq] at this
      exact this.comp_measurable hz.measurable
    refine le_trans (mul_le_mul_right (measure_mono fun k hk => ?_) _) (mul_meas_ge_le_lintegral₀ hmk (ENNReal.ofReal (Real.exp c)))
    show ENNReal.ofReal (Real.exp c) ≤ ENNReal.ofReal (∏ i, Real.exp (g (z k i)))
    rw [← hprod]
    exact ENNReal.ofReal_le_ofReal (Real.exp_le_exp.2 (hS k hk))
  have he : ENNReal.ofReal (Real.exp (-c)) * (ENNReal.ofReal (Real.exp c) * κ S) = κ S := by
    rw [← mul_assoc, ← ENNReal.ofReal_mul (Real.exp_pos _).le, ← Real.exp_add]
    simp
  rw [← he, mul_comm ((∫ z, Real.exp (g z) ∂P) ^ n), ENNReal.ofReal_mul (Real.exp_pos _).le]
  exact mul_le_mul_right hmono _

end BMI.Chernoff
