import Verif.Lemmas.MutualInfo
import Mathlib.MeasureTheory.Measure.Decomposition.RadonNikodym
import Mathlib.MeasureTheory.Measure.Prod

/-! Mutual information of a law given by densities. -/

namespace BMI

open MeasureTheory InformationTheory

variable {X Y : Type*} [MeasurableSpace X] [MeasurableSpace Y]

/-- If `P` has density `r` with respect to the product of its marginals and `log r` is integrable, the mutual
information is the integral of `log r`. -/
theorem mutualInfo_of_ratio (P : Measure (X × Y)) [IsProbabilityMeasure P] (r : X × Y → ℝ) (hr : Measurable r)
    (hr0 : ∀ z, 0 ≤ r z) (hP : P = (P.fst.prod P.snd).withDensity fun z => ENNReal.ofReal (r z))
    (hint : Integrable (fun z => Real.log (r z)) P) :
    mutualInfo P = ENNReal.ofReal (∫ z, Real.log (r z) ∂P) ∧ 0 ≤ ∫ z, Real.log (r z) ∂P := by
  have hm : Measurable fun z => ENNReal.ofReal (r z) := hr.ennreal_ofReal
  have hac : P ≪ P.fst.prod P.snd := by
    conv_lhs => rw [hP]
    exact withDensity_absolutelyContinuous _ _
  have hrn : P.rnDeriv (P.fst.prod P.snd) =ᵐ[P.fst.prod P.snd] fun z => ENNReal.ofReal (r z) := by
    conv_lhs => rw [hP]
    have := Measure.rnDeriv_withDensity (P.fst.prod P.snd) hm
    have e1 : ((P.fst.prod P.snd).withDensity fun z => ENNReal.ofReal (r z)).fst = P.fst := by rw [← hP]
    have e2 : ((P.fst.prod P.snd).withDensity fun z => ENNReal.ofReal (r z)).snd = P.snd := by rw [← hP]
    rw [e1, e2]
    exact this
  have hllr : llr P (P.fst.prod P.snd) =ᵐ[P] fun z => Real.log (r z) := by
    filter_upwards [hac.ae_le hrn] with z hz
    rw [llr, hz, ENNReal.toReal_ofReal (hr0 z)]
  have hint' : Integrable (llr P (P.fst.prod P.snd)) P := (integrable_congr hllr).2 hint
  have hkl : (klDiv P (P.fst.prod P.snd)).toReal = ∫ z, Real.log (r z) ∂P := by
    rw [toReal_klDiv_of_measure_eq hac (by simp), integral_congr_ae hllr]
  have hne : klDiv P (P.fst.prod P.snd) ≠ ⊤ := klDiv_ne_top hac hint'
  constructor
  · unfold mutualInfo
    rw [← hkl, ENNReal.ofReal_toReal hne]
  · rw [← hkl]
    exact ENNReal.toReal_nonneg

/-- The same, for densities with respect to a product of reference measures. -/
theorem mutualInfo_of_density (l₁ : Measure X) (l₂ : Measure Y) [SFinite l₁] [SFinite l₂] (P : Measure (X × Y))
    [IsProbabilityMeasure P] (p : X × Y → ℝ) (a : X → ℝ) (b : Y → ℝ) (hp : Measurable p) (ha : Measurable a)
    (hb : Measurable b) (hp0 : ∀ z, 0 ≤ p z) (ha0 : ∀ x, 0 ≤ a x) (hb0 : ∀ y, 0 ≤ b y)
    (hP : P = (l₁.prod l₂).withDensity fun z => ENNReal.ofReal (p z))
    (hPa : P.fst = l₁.withDensity fun x => ENNReal.ofReal (a x))
    (hPb : P.snd = l₂.withDensity fun y => ENNReal.ofReal (b y))
    (hint : Integrable (fun z => Real.log (p z / (a z.1 * b z.2))) P) :
    mutualInfo P = ENNReal.ofReal (∫ z, Real.log (p z / (a z.1 * b z.2)) ∂P) ∧
      0 ≤ ∫ z, Real.log (p z / (a z.1 * b z.2)) ∂P := by
  have hab : Measurable fun z : X × Y => a z.1 * b z.2 := by fun_prop
  have hz : ∀ᵐ z ∂(l₁.prod l₂), a z.1 * b z.2 = 0 → p z = 0 := by
    have h1 : ∀ᵐ x ∂P.fst, a x ≠ 0 := by
      rw [hPa, ae_withDensity_iff (by fun_prop)]
      refine Filter.Eventually.of_forall fun x hx h => hx ?_
      rw [h, ENNReal.ofReal_zero]
    have h2 : ∀ᵐ y ∂P.snd, b y ≠ 0 := by
      rw [hPb, ae_withDensity_iff (by fun_prop)]
      refine Filter.Eventually.of_forall fun x hx h => hx ?_
      rw [h, ENNReal.ofReal_zero]
    have h3 : ∀ᵐ z ∂P, a z.1 * b z.2 ≠ 0 := by
      filter_upwards [ae_of_ae_map measurable_fst.aemeasurable h1, ae_of_ae_map measurable_snd.aemeasurable h2]
        with z h4 h5 using mul_ne_zero h4 h5
    rw [hP, ae_withDensity_iff (by fun_prop)] at h3
    filter_upwards [h3] with z hz h
    by_contra hne
    refine hz ?_ h
    rw [Ne, ENNReal.ofReal_eq_zero, not_le]
    exact lt_of_le_of_ne (hp0 z) (Ne.symm hne)
  refine mutualInfo_of_ratio P _ (hp.div hab) (fun z => div_nonneg (hp0 z) (mul_nonneg (ha0 _) (hb0 _))) ?_ hint
  have hm : Measurable fun z : X × Y => ENNReal.ofReal (p z / (a z.1 * b z.2)) := (hp.div hab).ennreal_ofReal
  rw [hPa, hPb, prod_withDensity (ha.ennreal_ofReal) (hb.ennreal_ofReal), ← withDensity_mul _ (by fun_prop) hm]
  conv_lhs => rw [hP]
  refine withDensity_congr_ae ?_
  filter_upwards [hz] with z hz
  simp only [Pi.mul_apply]
  rw [← ENNReal.ofReal_mul (ha0 _), ← ENNReal.ofReal_mul (mul_nonneg (ha0 _) (hb0 _))]
  congr 1
  rcases eq_or_ne (a z.1 * b z.2) 0 with h | h
  · rw [h, hz h]; simp
  · rw [mul_div_assoc', mul_div_cancel_left₀ _ h]

end BMI
