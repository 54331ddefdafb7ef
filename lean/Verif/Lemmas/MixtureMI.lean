import Verif.Lemmas.BmmMixture
import Verif.Lemmas.Density
import Mathlib.Analysis.SpecialFunctions.Log.NegMulLog

/-! The mutual information of a mixture is at most the mean of those of the components plus the entropy of the
proportions. -/

namespace BMI.Bmm

open MeasureTheory InformationTheory

variable {X Y : Type} [MeasurableSpace X] [MeasurableSpace Y] {m : ℕ}

/-- A point with labels. -/
def label (i j : Fin m) (z : X × Y) : (X × Fin m) × (Y × Fin m) := ((z.1, i), (z.2, j))

theorem measurable_label (i j : Fin m) : Measurable (label (X := X) (Y := Y) i j) := by
  unfold label
  fun_prop

theorem lintegral_mixture {Ω : Type} [MeasurableSpace Ω] (p : Fin m → ℝ) (μ : Fin m → Measure Ω) (f : Ω → ENNReal) :
    ∫⁻ z, f z ∂(mixtureLaw p μ) = ∑ j, ENNReal.ofReal (p j) * ∫⁻ z, f z ∂(μ j) := by
  unfold mixtureLaw
  rw [lintegral_finsetSum_measure]
  simp only [lintegral_smul_measure, smul_eq_mul]

theorem integral_mixture {Ω : Type} [MeasurableSpace Ω] (p : Fin m → ℝ) (h0 : ∀ j, 0 ≤ p j) (μ : Fin m → Measure Ω)
    (f : Ω → ℝ) (hf : ∀ j, 0 < p j → Integrable f (μ j)) :
    Integrable f (mixtureLaw p μ) ∧ ∫ z, f z ∂(mixtureLaw p μ) = ∑ j, p j * ∫ z, f z ∂(μ j) := by
  have h : ∀ j ∈ Finset.univ, Integrable f (ENNReal.ofReal (p j) • μ j) := by
    intro j _
    rcases (h0 j).eq_or_lt with hj | hj
    · rw [← hj]
      simp
    · exact (hf j hj).smul_measure ENNReal.ofReal_ne_top
  unfold mixtureLaw
  refine ⟨integrable_finsetSum_measure.2 h, ?_⟩
  rw [integral_finsetSum_measure h]
  refine Finset.sum_congr rfl fun j _ => ?_
  rw [integral_smul_measure, ENNReal.toReal_ofReal (h0 j), smul_eq_mul]

/-- The mutual information of the pairs with the label of the component in both parts. -/
theorem mutualInfo_labelled (p : Fin m → ℝ) (h0 : ∀ j, 0 ≤ p j) (h1 : ∑ j, p j = 1) (P : Fin m → Measure (X × Y))
    [∀ j, IsProbabilityMeasure (P j)] (hfin : ∀ j, 0 < p j → mutualInfo (P j) ≠ ⊤) :
    mutualInfo (mixtureLaw p fun j => (P j).map (label j j))
      = ENNReal.ofReal (∑ j, p j * (mutualInfo (P j)).toReal + ∑ j, Real.negMulLog (p j)) := by
  classical
  have h1' : (List.ofFn p).sum = 1 := by rw [List.sum_ofFn, h1]
  haveI : ∀ j, IsProbabilityMeasure ((P j).map (label j j)) := fun j =>
    Measure.isProbabilityMeasure_map (measurable_label j j).aemeasurable
  set Q := mixtureLaw p fun j => (P j).map (label j j) with hQ
  haveI : IsProbabilityMeasure Q := mixtureLaw_prob h0 h1' _
  have hQ1 : Q.fst = mixtureLaw p fun j => (P j).fst.map fun x => (x, j) := by
    rw [hQ, Measure.fst, mixtureLaw_map _ _ measurable_fst]
    congr 1
    funext j
    rw [Measure.map_map measurable_fst (measurable_label j j), Measure.fst, Measure.map_map (by fun_prop) measurable_fst]
    rfl
  have hQ2 : Q.snd = mixtureLaw p fun j => (P j).snd.map fun y => (y, j) := by
    rw [hQ, Measure.snd, mixtureLaw_map _ _ measurable_snd]
    congr 1
    funext j
    rw [Measure.map_map measurable_snd (measurable_label j j), Measure.snd, Measure.map_map (by fun_prop) measurable_snd]
    rfl
  haveI : SFinite (mixtureLaw p fun j => (P j).snd.map fun y => (y, j)) := by
    rw [← hQ2]
    infer_instance
  set d : Fin m → X × Y → ENNReal := fun j => (P j).rnDeriv ((P j).fst.prod (P j).snd) with hd
  have hdm : ∀ j, Measurable (d j) := fun j => Measure.measurable_rnDeriv _ _
  set r : (X × Fin m) × (Y × Fin m) → ℝ := fun w =>
    if w.1.2 = w.2.2 then (d w.1.2 (w.1.1, w.2.1)).toReal / p w.1.2 else 0 with hr
  have hrm : Measurable r := by
    have e : r = fun w => ∑ j : Fin m, if w.1.2 = j ∧ w.2.2 = j then (d j (w.1.1, w.2.1)).toReal / p j else 0 := by
      funext w
      rw [hr]
      by_cases h : w.1.2 = w.2.2
      · simp only [if_pos h]
        rw [Finset.sum_eq_single w.1.2]
        · rw [if_pos ⟨rfl, h.symm⟩]
        · intro j _ hj
          rw [if_neg fun h' => hj h'.1.symm]
        · simp
      · simp only [if_neg h]
        rw [Finset.sum_eq_zero]
        intro j _
        rw [if_neg fun h' => h (h'.1.trans h'.2.symm)]
    rw [e]
    refine Finset.measurable_sum _ fun j _ => Measurable.ite ?_ ?_ measurable_const
    · exact ((measurable_snd.comp measurable_fst) (measurableSet_singleton j)).inter
        ((measurable_snd.comp measurable_snd) (measurableSet_singleton j))
    · exact (((hdm j).comp (by fun_prop)).ennreal_toReal).div_const _
  have hr0 : ∀ w, 0 ≤ r w := by
    intro w
    rw [hr]
    simp only
    split_ifs
    · exact div_nonneg ENNReal.toReal_nonneg (h0 _)
    · exact le_rfl
  have hac : ∀ j, 0 < p j → P j ≪ (P j).fst.prod (P j).snd := fun j hj => (klDiv_ne_top_iff.1 (hfin j hj)).1
  have hdens : ∀ j, 0 < p j → P j = ((P j).fst.prod (P j).snd).withDensity (d j) := fun j hj =>
    (Measure.withDensity_rnDeriv_eq _ _ (hac j hj)).symm
  have hlt : ∀ j, ∀ᵐ z ∂((P j).fst.prod (P j).snd), d j z < ⊤ := fun j => Measure.rnDeriv_lt_top _ _
  -- the density
  have hP : Q = (Q.fst.prod Q.snd).withDensity fun w => ENNReal.ofReal (r w) := by
    refine Measure.ext_of_lintegral _ fun f hf => ?_
    have hrf : Measurable fun w => ENNReal.ofReal (r w) * f w := hrm.ennreal_ofReal.mul hf
    rw [lintegral_withDensity_eq_lintegral_mul _ hrm.ennreal_ofReal hf]
    simp only [Pi.mul_apply]
    rw [lintegral_prod _ hrf.aemeasurable, hQ1, hQ2, hQ, lintegral_mixture, lintegral_mixture]
    refine Finset.sum_congr rfl fun i _ => ?_
    rcases (h0 i).eq_or_lt with hi | hi
    · rw [← hi]
      simp
    congr 1
    have hi0 : ENNReal.ofReal (p i) ≠ 0 := by simpa using hi
    rw [lintegral_map hf (measurable_label i i), lintegral_map (hrf.lintegral_prod_right') (by fun_prop)]
    conv_lhs => rw [hdens i hi]
    have hfl : Measurable fun z => f (label i i z) := hf.comp (measurable_label i i)
    rw [lintegral_withDensity_eq_lintegral_mul _ (hdm i) hfl]
    have hin : ∀ x : X, ∫⁻ y, ENNReal.ofReal (r ((x, i), y)) * f ((x, i), y) ∂(mixtureLaw p fun j => (P j).snd.map fun y => (y, j))
        = ∫⁻ y, ENNReal.ofReal (d i (x, y)).toReal * f (label i i (x, y)) ∂(P i).snd := by
      intro x
      rw [lintegral_mixture, Finset.sum_eq_single i]
      · rw [lintegral_map (by fun_prop) (by fun_prop), ← lintegral_const_mul _ (by
          exact ((hrm.comp (by fun_prop)).ennreal_ofReal.mul (hf.comp (by fun_prop))))]
        refine lintegral_congr fun y => ?_
        rw [← mul_assoc, ← ENNReal.ofReal_mul hi.le]
        congr 2
        simp only [hr, if_true]
        field_simp
      · intro j _ hj
        rw [lintegral_map (by fun_prop) (by fun_prop)]
        have : ∀ y : Y, r ((x, i), (y, j)) = 0 := fun y => by
          simp only [hr]
          rw [if_neg (Ne.symm hj)]
        simp [this]
      · simp
    simp only [hin]
    have hmeas : Measurable fun z => ENNReal.ofReal (d i z).toReal * f (label i i z) :=
      (hdm i).ennreal_toReal.ennreal_ofReal.mul (hf.comp (measurable_label i i))
    rw [← lintegral_prod (fun z => ENNReal.ofReal (d i z).toReal * f (label i i z)) hmeas.aemeasurable]
    refine lintegral_congr_ae ?_
    filter_upwards [hlt i] with z hz
    simp only [Pi.mul_apply, Function.comp]
    rw [ENNReal.ofReal_toReal hz.ne]
  -- the logarithm of the density
  have hlog : ∀ j, 0 < p j → Integrable (fun w => Real.log (r w)) ((P j).map (label j j)) ∧
      ∫ w, Real.log (r w) ∂((P j).map (label j j)) = (mutualInfo (P j)).toReal - Real.log (p j) := by
    intro j hj
    have hint := (klDiv_ne_top_iff.1 (hfin j hj)).2
    have hmi : (mutualInfo (P j)).toReal = ∫ z, llr (P j) ((P j).fst.prod (P j).snd) z ∂(P j) :=
      toReal_klDiv_of_measure_eq (hac j hj) (by simp)
    have hpos : ∀ᵐ z ∂(P j), 0 < (d j z).toReal := by
      filter_upwards [Measure.rnDeriv_pos (hac j hj), (hac j hj).ae_le (hlt j)] with z h1 h2
      exact ENNReal.toReal_pos h1.ne' h2.ne
    have hae : (fun z => Real.log (r (label j j z))) =ᵐ[P j]
        fun z => llr (P j) ((P j).fst.prod (P j).snd) z - Real.log (p j) := by
      filter_upwards [hpos] with z hz
      simp only [hr, label, if_true]
      rw [Real.log_div hz.ne' hj.ne']
      rfl
    have hm : AEStronglyMeasurable (fun w => Real.log (r w)) ((P j).map (label j j)) :=
      (Real.measurable_log.comp hrm).aestronglyMeasurable
    constructor
    · rw [integrable_map_measure hm (measurable_label j j).aemeasurable]
      exact (integrable_congr hae).2 (hint.sub (integrable_const _))
    · rw [integral_map (measurable_label j j).aemeasurable hm, integral_congr_ae hae, integral_sub hint (integrable_const _),
        hmi]
      simp
  obtain ⟨hi1, hi2⟩ := integral_mixture p h0 (fun j => (P j).map (label j j)) (fun w => Real.log (r w)) fun j hj => (hlog j hj).1
  rw [(mutualInfo_of_ratio Q r hrm hr0 hP hi1).1, hi2, ← Finset.sum_add_distrib]
  congr 1
  refine Finset.sum_congr rfl fun j _ => ?_
  rcases (h0 j).eq_or_lt with hj | hj
  · rw [← hj]
    simp
  · rw [(hlog j hj).2, Real.negMulLog]
    ring

/-- The mutual information of a mixture. -/
theorem mutualInfo_mixture_le (p : Fin m → ℝ) (h0 : ∀ j, 0 ≤ p j) (h1 : ∑ j, p j = 1) (P : Fin m → Measure (X × Y))
    [∀ j, IsProbabilityMeasure (P j)] (hfin : ∀ j, 0 < p j → mutualInfo (P j) ≠ ⊤) :
    mutualInfo (mixtureLaw p P)
      ≤ ENNReal.ofReal (∑ j, p j * (mutualInfo (P j)).toReal + ∑ j, Real.negMulLog (p j)) := by
  rw [← mutualInfo_labelled p h0 h1 P hfin]
  have h1' : (List.ofFn p).sum = 1 := by rw [List.sum_ofFn, h1]
  haveI : ∀ j, IsProbabilityMeasure ((P j).map (label j j)) := fun j =>
    Measure.isProbabilityMeasure_map (measurable_label j j).aemeasurable
  haveI : IsProbabilityMeasure (mixtureLaw p fun j => (P j).map (label j j)) := mixtureLaw_prob h0 h1' _
  have e : mixtureLaw p P = (mixtureLaw p fun j => (P j).map (label j j)).map (Prod.map Prod.fst Prod.fst) := by
    rw [mixtureLaw_map _ _ (measurable_fst.prodMap measurable_fst)]
    congr 1
    funext j
    rw [Measure.map_map (measurable_fst.prodMap measurable_fst) (measurable_label j j)]
    exact Measure.map_id.symm
  conv_lhs => rw [e]
  exact mutualInfo_map_le _ measurable_fst measurable_fst

/-- The entropy of proportions is at most the logarithm of their number. -/
theorem entropy_le (p : Fin m → ℝ) (h0 : ∀ j, 0 ≤ p j) (h1 : ∑ j, p j = 1) :
    ∑ j, Real.negMulLog (p j) ≤ Real.log m := by
  have hm : (0 : ℝ) < m := by
    rcases Nat.eq_zero_or_pos m with rfl | h
    · simp at h1
    · exact_mod_cast h
  have := Real.concaveOn_negMulLog.le_map_sum (t := Finset.univ) (w := fun _ : Fin m => (m : ℝ)⁻¹) (p := p)
    (fun _ _ => by positivity) (by simp; field_simp) (fun j _ => h0 j)
  simp only [smul_eq_mul, ← Finset.mul_sum, h1, mul_one] at this
  rw [Real.negMulLog, Real.log_inv] at this
  have h2 := mul_le_mul_of_nonneg_left this hm.le
  rw [← mul_assoc, mul_inv_cancel₀ hm.ne', one_mul] at h2
  calc _ ≤ _ := h2
    _ = Real.log m := by field_simp

/-- Replacing a fraction of the points by independent ones. -/
theorem mutualInfo_contaminated_le (P : Measure (X × Y)) [IsProbabilityMeasure P] {ε : ℝ} (h0 : 0 ≤ ε) (h1 : ε ≤ 1) :
    (mixtureLaw ![1 - ε, ε] ![P, P.fst.prod P.snd]).fst = P.fst ∧
    (mixtureLaw ![1 - ε, ε] ![P, P.fst.prod P.snd]).snd = P.snd ∧
    mutualInfo (mixtureLaw ![1 - ε, ε] ![P, P.fst.prod P.snd]) ≤ ENNReal.ofReal (1 - ε) * mutualInfo P := by
  set Q := P.fst.prod P.snd with hQ
  have hM : mixtureLaw ![1 - ε, ε] ![P, Q] = ENNReal.ofReal (1 - ε) • P + ENNReal.ofReal ε • Q := by
    simp [mixtureLaw, Fin.sum_univ_two]
  rw [hM]
  have hsum : ENNReal.ofReal (1 - ε) + ENNReal.ofReal ε = 1 := by
    rw [← ENNReal.ofReal_add (by linarith) h0]
    simp
  have hone : ∀ {Ω : Type} [MeasurableSpace Ω] (μ : Measure Ω), ENNReal.ofReal (1 - ε) • μ + ENNReal.ofReal ε • μ = μ :=
    fun μ => by rw [← add_smul, hsum, one_smul]
  have hf : (ENNReal.ofReal (1 - ε) • P + ENNReal.ofReal ε • Q).fst = P.fst := by
    rw [Measure.fst, Measure.map_add _ _ measurable_fst, Measure.map_smul, Measure.map_smul]
    have : Q.map Prod.fst = P.fst := by rw [hQ]; exact Measure.fst_prod
    rw [this]
    exact hone _
  have hs : (ENNReal.ofReal (1 - ε) • P + ENNReal.ofReal ε • Q).snd = P.snd := by
    rw [Measure.snd, Measure.map_add _ _ measurable_snd, Measure.map_smul, Measure.map_smul]
    have : Q.map Prod.snd = P.snd := by rw [hQ]; exact Measure.snd_prod
    rw [this]
    exact hone _
  refine ⟨hf, hs, ?_⟩
  rcases h1.eq_or_lt with rfl | hlt
  · have e : ENNReal.ofReal (1 - 1) • P + ENNReal.ofReal 1 • Q = P.fst.prod P.snd := by
      rw [hQ]
      simp
    rw [e, mutualInfo_prod]
    exact zero_le'
  · by_cases htop : mutualInfo P = ⊤
    · rw [htop, ENNReal.mul_top (by simpa using hlt)]
      exact le_top
    · have hac : P ≪ Q := (klDiv_ne_top_iff.1 htop).1
      haveI : IsFiniteMeasure (ENNReal.ofReal (1 - ε) • P) := ⟨by simp⟩
      haveI : IsFiniteMeasure (ENNReal.ofReal ε • Q) := ⟨by simp [hQ]⟩
      have hacM : ENNReal.ofReal (1 - ε) • P + ENNReal.ofReal ε • Q ≪ Q :=
        Measure.AbsolutelyContinuous.add_left (hac.smul_left _) (Measure.AbsolutelyContinuous.rfl.smul_left _)
      unfold mutualInfo
      rw [hf, hs, ← hQ, klDiv_eq_lintegral_klFun_of_ac hacM, klDiv_eq_lintegral_klFun_of_ac hac,
        ← lintegral_const_mul _ (by fun_prop)]
      have hrn : (ENNReal.ofReal (1 - ε) • P + ENNReal.ofReal ε • Q).rnDeriv Q
          =ᵐ[Q] fun z => ENNReal.ofReal (1 - ε) * P.rnDeriv Q z + ENNReal.ofReal ε := by
        filter_upwards [Measure.rnDeriv_add (ENNReal.ofReal (1 - ε) • P) (ENNReal.ofReal ε • Q) Q,
          Measure.rnDeriv_smul_left_of_ne_top P Q (r := ENNReal.ofReal (1 - ε)) ENNReal.ofReal_ne_top,
          Measure.rnDeriv_smul_left_of_ne_top Q Q (r := ENNReal.ofReal ε) ENNReal.ofReal_ne_top,
          Measure.rnDeriv_self Q] with z h1 h2 h3 h4
        rw [h1, Pi.add_apply, h2, h3]
        simp [h4]
      refine lintegral_mono_ae ?_
      filter_upwards [hrn, Measure.rnDeriv_lt_top P Q] with z hz hfin
      have e : ((ENNReal.ofReal (1 - ε) • P + ENNReal.ofReal ε • Q).rnDeriv Q z).toReal
          = (1 - ε) * (P.rnDeriv Q z).toReal + ε * 1 := by
        rw [hz, ENNReal.toReal_add (ENNReal.mul_ne_top ENNReal.ofReal_ne_top hfin.ne) ENNReal.ofReal_ne_top,
          ENNReal.toReal_mul, ENNReal.toReal_ofReal (by linarith), ENNReal.toReal_ofReal h0, mul_one]
      rw [e, ← ENNReal.ofReal_mul (by linarith)]
      refine ENNReal.ofReal_le_ofReal ?_
      have hx : (P.rnDeriv Q z).toReal ∈ Set.Ici (0 : ℝ) := Set.mem_Ici.2 ENNReal.toReal_nonneg
      have hy : (1 : ℝ) ∈ Set.Ici (0 : ℝ) := Set.mem_Ici.2 zero_le_one
      have := convexOn_klFun.2 hx hy (show 0 ≤ 1 - ε by linarith) h0 (by ring)
      simpa [klFun_one] using this

end BMI.Bmm
