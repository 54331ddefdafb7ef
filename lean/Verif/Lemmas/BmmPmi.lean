import Verif.Lemmas.BmmTransform
import Verif.Lemmas.Density
import Mathlib.Probability.Moments.Variance
import Mathlib.MeasureTheory.Function.SpecialFunctions.Basic

/-! The pointwise mutual information is the logarithm of a density, and averages of independent draws. -/

namespace BMI.Bmm

open MeasureTheory ProbabilityTheory InformationTheory BMI.Samplers

variable {X Y : Type} [MeasurableSpace X] [MeasurableSpace Y]

theorem exp_ratio (a u v : EReal) : (a - (u + v)).exp = a.exp * (u.exp * v.exp)⁻¹ := by
  rw [sub_eq_add_neg, EReal.exp_add, EReal.exp_neg, EReal.exp_add]

theorem ae_finite_of_exp {Ω : Type} [MeasurableSpace Ω] {b μ : Measure Ω} [IsFiniteMeasure μ] {a : Ω → EReal}
    (ha : AEMeasurable a b) (hμ : μ = b.withDensity fun z => (a z).exp) :
    (∀ᵐ z ∂b, a z ≠ ⊤) ∧ ∀ᵐ z ∂μ, a z ≠ ⊥ ∧ a z ≠ ⊤ := by
  have hm : AEMeasurable (fun z => (a z).exp) b := EReal.measurable_exp.comp_aemeasurable ha
  have h1 : ∀ᵐ z ∂b, a z ≠ ⊤ := by
    have hfin : ∫⁻ z, (a z).exp ∂b ≠ ⊤ := by
      have : μ Set.univ ≠ ⊤ := measure_ne_top μ _
      rwa [hμ, withDensity_apply _ MeasurableSet.univ, Measure.restrict_univ] at this
    filter_upwards [ae_lt_top' hm hfin] with z hz h
    rw [h] at hz
    simp at hz
  have h2 : ∀ᵐ z ∂μ, a z ≠ ⊥ := by
    rw [hμ, ae_withDensity_iff' hm]
    exact Filter.Eventually.of_forall fun z hz h => hz (by rw [h]; simp)
  have hac : μ ≪ b := by
    rw [hμ]
    exact withDensity_absolutelyContinuous _ _
  refine ⟨h1, ?_⟩
  filter_upwards [h2, hac.ae_le h1] with z hz hz' using ⟨hz, hz'⟩

/-- The ratio of the densities is a density with respect to the product of the marginals. -/
theorem ratio_density {b₁ : Measure X} {b₂ : Measure Y} [SFinite b₁] [SFinite b₂] {P : Measure (X × Y)}
    [IsProbabilityMeasure P] {a : X × Y → EReal} {u : X → EReal} {v : Y → EReal} (ha : AEMeasurable a (b₁.prod b₂))
    (hu : AEMeasurable u b₁) (hv : AEMeasurable v b₂) (hP : P = (b₁.prod b₂).withDensity fun z => (a z).exp)
    (hX : P.fst = b₁.withDensity fun x => (u x).exp) (hY : P.snd = b₂.withDensity fun y => (v y).exp) :
    P = (P.fst.prod P.snd).withDensity (fun z => (a z - (u z.1 + v z.2)).exp) ∧
    AEMeasurable (fun z => (a z - (u z.1 + v z.2)).exp) (P.fst.prod P.snd) ∧
    ∀ᵐ z ∂P, a z - (u z.1 + v z.2) ≠ ⊥ ∧ a z - (u z.1 + v z.2) ≠ ⊤ := by
  have hae : AEMeasurable (fun z => (a z).exp) (b₁.prod b₂) := EReal.measurable_exp.comp_aemeasurable ha
  have hue : AEMeasurable (fun x => (u x).exp) b₁ := EReal.measurable_exp.comp_aemeasurable hu
  have hve : AEMeasurable (fun y => (v y).exp) b₂ := EReal.measurable_exp.comp_aemeasurable hv
  have hue' : AEMeasurable (fun z : X × Y => (u z.1).exp) (b₁.prod b₂) :=
    hue.comp_quasiMeasurePreserving Measure.quasiMeasurePreserving_fst
  have hve' : AEMeasurable (fun z : X × Y => (v z.2).exp) (b₁.prod b₂) :=
    hve.comp_quasiMeasurePreserving Measure.quasiMeasurePreserving_snd
  have huv : AEMeasurable (fun z : X × Y => (u z.1).exp * (v z.2).exp) (b₁.prod b₂) := hue'.mul hve'
  have hw : AEMeasurable (fun z => (a z - (u z.1 + v z.2)).exp) (b₁.prod b₂) := by
    simp only [exp_ratio]
    exact hae.mul huv.inv
  have hprod : P.fst.prod P.snd = (b₁.prod b₂).withDensity fun z => (u z.1).exp * (v z.2).exp := by
    rw [hX, hY, prod_withDensity₀ hue hve]
  obtain ⟨hX1, hX2⟩ := ae_finite_of_exp (μ := P.fst) hu hX
  obtain ⟨hY1, hY2⟩ := ae_finite_of_exp (μ := P.snd) hv hY
  obtain ⟨hP1, hP2⟩ := ae_finite_of_exp (μ := P) ha hP
  have hX3 : ∀ᵐ z ∂P, u z.1 ≠ ⊥ ∧ u z.1 ≠ ⊤ := ae_of_ae_map measurable_fst.aemeasurable hX2
  have hY3 : ∀ᵐ z ∂P, v z.2 ≠ ⊥ ∧ v z.2 ≠ ⊤ := ae_of_ae_map measurable_snd.aemeasurable hY2
  have hX4 : ∀ᵐ z ∂(b₁.prod b₂), u z.1 ≠ ⊤ := Measure.quasiMeasurePreserving_fst.ae hX1
  have hY4 : ∀ᵐ z ∂(b₁.prod b₂), v z.2 ≠ ⊤ := Measure.quasiMeasurePreserving_snd.ae hY1
  have hz : ∀ᵐ z ∂(b₁.prod b₂), (a z).exp ≠ 0 → u z.1 ≠ ⊥ ∧ v z.2 ≠ ⊥ := by
    have : ∀ᵐ z ∂P, u z.1 ≠ ⊥ ∧ v z.2 ≠ ⊥ := by
      filter_upwards [hX3, hY3] with z h1 h2 using ⟨h1.1, h2.1⟩
    rwa [hP, ae_withDensity_iff' hae] at this
  refine ⟨?_, ?_, ?_⟩
  · rw [hprod, ← withDensity_mul₀ huv hw]
    conv_lhs => rw [hP]
    refine withDensity_congr_ae ?_
    filter_upwards [hX4, hY4, hz] with z h1 h2 h3
    simp only [Pi.mul_apply, exp_ratio]
    by_cases h0 : (a z).exp = 0
    · rw [h0]; simp
    · obtain ⟨h4, h5⟩ := h3 h0
      have e0 : (u z.1).exp * (v z.2).exp ≠ 0 := mul_ne_zero (by simpa using h4) (by simpa using h5)
      have e1 : (u z.1).exp * (v z.2).exp ≠ ⊤ := ENNReal.mul_ne_top (by simpa using h1) (by simpa using h2)
      rw [mul_comm (a z).exp, ← mul_assoc, ENNReal.mul_inv_cancel e0 e1, one_mul]
  · rw [hprod]
    exact hw.mono_ac (withDensity_absolutelyContinuous _ _)
  · filter_upwards [hP2, hX3, hY3] with z h1 h2 h3
    obtain ⟨p, hp⟩ : ∃ p : ℝ, a z = p := ⟨_, (EReal.coe_toReal h1.2 h1.1).symm⟩
    obtain ⟨q, hq⟩ : ∃ q : ℝ, u z.1 = q := ⟨_, (EReal.coe_toReal h2.2 h2.1).symm⟩
    obtain ⟨r, hr⟩ : ∃ r : ℝ, v z.2 = r := ⟨_, (EReal.coe_toReal h3.2 h3.1).symm⟩
    rw [hp, hq, hr, ← EReal.coe_add, ← EReal.coe_sub]
    exact ⟨EReal.coe_ne_bot _, EReal.coe_ne_top _⟩

/-- Mutual information as an integral of the logarithm of a density. -/
theorem mutualInfo_of_log (P : Measure (X × Y)) [IsProbabilityMeasure P] (w : X × Y → EReal)
    (hw : AEMeasurable (fun z => (w z).exp) (P.fst.prod P.snd))
    (hP : P = (P.fst.prod P.snd).withDensity fun z => (w z).exp) :
    AEMeasurable (fun z => (w z).toReal) P ∧ (mutualInfo P ≠ ⊤ ↔ Integrable (fun z => (w z).toReal) P) ∧
    (mutualInfo P ≠ ⊤ → mutualInfo P = ENNReal.ofReal (∫ z, (w z).toReal ∂P) ∧ 0 ≤ ∫ z, (w z).toReal ∂P) := by
  set Q := P.fst.prod P.snd with hQ
  have hac : P ≪ Q := by
    rw [hP]
    exact withDensity_absolutelyContinuous _ _
  have hw' : AEMeasurable w Q := by
    have : w = fun z => ENNReal.log ((w z).exp) := by
      funext z
      rw [EReal.log_exp]
    rw [this]
    exact ENNReal.measurable_log.comp_aemeasurable hw
  have hrn : P.rnDeriv Q =ᵐ[Q] fun z => (w z).exp := by
    conv_lhs => rw [hP]
    exact Measure.rnDeriv_withDensity₀ Q hw
  have hllr : llr P Q =ᵐ[P] fun z => (w z).toReal := by
    filter_upwards [hac.ae_le hrn] with z hz
    rw [llr, hz]
    induction w z using EReal.rec with
    | bot => simp
    | coe r => rw [EReal.exp_coe, ENNReal.toReal_ofReal (Real.exp_nonneg _), Real.log_exp, EReal.toReal_coe]
    | top => simp
  have hiff : mutualInfo P ≠ ⊤ ↔ Integrable (fun z => (w z).toReal) P := by
    unfold mutualInfo
    rw [klDiv_ne_top_iff, integrable_congr hllr]
    exact ⟨fun h => h.2, fun h => ⟨hac, h⟩⟩
  refine ⟨?_, hiff, fun hne => ?_⟩
  · exact (measurable_ereal_toReal.comp_aemeasurable hw').mono_ac hac
  · have hkl : (mutualInfo P).toReal = ∫ z, (w z).toReal ∂P := by
      unfold mutualInfo
      rw [toReal_klDiv_of_measure_eq hac (by simp), integral_congr_ae hllr]
    rw [← hkl]
    exact ⟨(ENNReal.ofReal_toReal hne).symm, ENNReal.toReal_nonneg⟩

/-! ## Averages -/

/-- Mean of independent draws. -/
theorem mean_draws {Ω : Type} [MeasurableSpace Ω] (μ : Measure Ω) [IsProbabilityMeasure μ] {f : Ω → ℝ}
    (hf : Integrable f μ) (n : ℕ) (hn : 0 < n) :
    Integrable (fun w : Fin n → Ω => (∑ i, f (w i)) / n) (Measure.pi fun _ => μ) ∧
    ∫ w, (∑ i, f (w i)) / n ∂(Measure.pi fun _ : Fin n => μ) = ∫ z, f z ∂μ := by
  have hi : ∀ i : Fin n, Integrable (fun w : Fin n → Ω => f (w i)) (Measure.pi fun _ => μ) := fun i =>
    (measurePreserving_eval (fun _ : Fin n => μ) i).integrable_comp_of_integrable hf
  have he : ∀ i : Fin n, ∫ w, f (w i) ∂(Measure.pi fun _ : Fin n => μ) = ∫ z, f z ∂μ := fun i => by
    have h := measurePreserving_eval (fun _ : Fin n => μ) i
    have := integral_map (μ := Measure.pi fun _ : Fin n => μ) (φ := Function.eval i) h.measurable.aemeasurable
      (f := f) (by rw [h.map_eq]; exact hf.1)
    rw [h.map_eq] at this
    exact this.symm
  refine ⟨(integrable_finset_sum _ fun i _ => hi i).div_const _, ?_⟩
  rw [integral_div, integral_finset_sum _ fun i _ => hi i]
  simp only [he]
  rw [Finset.sum_const, Finset.card_univ, Fintype.card_fin, nsmul_eq_mul]
  field_simp

/-- Variance of the mean of independent draws. -/
theorem variance_draws {Ω : Type} [MeasurableSpace Ω] (μ : Measure Ω) [IsProbabilityMeasure μ] {f : Ω → ℝ}
    (hf : MemLp f 2 μ) (n : ℕ) (hn : 0 < n) :
    MemLp (fun w : Fin n → Ω => (∑ i, f (w i)) / n) 2 (Measure.pi fun _ => μ) ∧
    Var[fun w : Fin n → Ω => (∑ i, f (w i)) / n; Measure.pi fun _ => μ] = Var[f; μ] / n := by
  have hm : ∀ i : Fin n, MemLp (fun w : Fin n → Ω => f (w i)) 2 (Measure.pi fun _ => μ) := fun i =>
    hf.comp_measurePreserving (measurePreserving_eval (fun _ : Fin n => μ) i)
  have hs : MemLp (fun w : Fin n → Ω => ∑ i, f (w i)) 2 (Measure.pi fun _ => μ) := memLp_finset_sum _ fun i _ => hm i
  have hv := variance_sum_pi (μ := fun _ : Fin n => μ) (X := fun _ => f) fun _ => hf
  have e : (∑ i, fun w : Fin n → Ω => f (w i)) = fun w => ∑ i, f (w i) := by
    funext w
    simp
  rw [e, Finset.sum_const, Finset.card_univ, Fintype.card_fin, nsmul_eq_mul] at hv
  have e2 : (fun w : Fin n → Ω => (∑ i, f (w i)) / n) = fun w => (∑ i, f (w i)) * (n : ℝ)⁻¹ := by
    funext w
    rw [div_eq_mul_inv]
  rw [e2]
  refine ⟨hs.mul_const _, ?_⟩
  rw [variance_mul_const, hv]
  field_simp

/-- Mean of the empirical variance of independent draws. -/
theorem empirical_variance_draws {Ω : Type} [MeasurableSpace Ω] (μ : Measure Ω) [IsProbabilityMeasure μ] {f : Ω → ℝ}
    (hf : MemLp f 2 μ) (n : ℕ) (hn : 0 < n) :
    Integrable (fun w : Fin n → Ω => (∑ i, (f (w i) - (∑ j, f (w j)) / n) ^ 2) / n) (Measure.pi fun _ => μ) ∧
    ∫ w, (∑ i, (f (w i) - (∑ j, f (w j)) / n) ^ 2) / n ∂(Measure.pi fun _ : Fin n => μ) = (n - 1) / n * Var[f; μ] := by
  have hn' : (n : ℝ) ≠ 0 := by positivity
  obtain ⟨hA, hvar⟩ := variance_draws μ hf n hn
  obtain ⟨-, hmean⟩ := mean_draws μ (hf.integrable one_le_two) n hn
  obtain ⟨hS, hsq⟩ := mean_draws μ hf.integrable_sq n hn
  have e : (fun w : Fin n → Ω => (∑ i, (f (w i) - (∑ j, f (w j)) / n) ^ 2) / n)
      = fun w => (∑ i, f (w i) ^ 2) / n - ((∑ i, f (w i)) / n) ^ 2 := by
    funext w
    set m := (∑ j, f (w j)) / n with hm
    have hm' : ∑ j, f (w j) = n * m := by rw [hm]; field_simp
    have : ∑ i, (f (w i) - m) ^ 2 = ∑ i, f (w i) ^ 2 - 2 * m * ∑ i, f (w i) + n * m ^ 2 := by
      simp only [sub_sq]
      rw [Finset.sum_add_distrib, Finset.sum_sub_distrib, Finset.sum_const, Finset.card_univ, Fintype.card_fin,
        nsmul_eq_mul, Finset.mul_sum]
      congr 2
      refine Finset.sum_congr rfl fun i _ => by ring
    rw [this, hm']
    field_simp
    ring
  have hB := hA.integrable_sq
  rw [e]
  refine ⟨hS.sub hB, ?_⟩
  rw [integral_sub hS hB, hsq]
  have h1 := variance_eq_sub hA
  have h2 := variance_eq_sub hf
  simp only [Pi.pow_apply] at h1 h2
  rw [hvar, hmean] at h1
  have e1 : ∫ w, ((∑ i, f (w i)) / n) ^ 2 ∂(Measure.pi fun _ : Fin n => μ) = Var[f; μ] / n + (∫ z, f z ∂μ) ^ 2 := by
    rw [h1]; ring
  have e2 : ∫ z, f z ^ 2 ∂μ = Var[f; μ] + (∫ z, f z ∂μ) ^ 2 := by
    rw [h2]; ring
  rw [e1, e2]
  field_simp
  ring

end BMI.Bmm
