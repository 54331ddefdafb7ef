import Verif.Lemmas.MixtureMore

/-! Mixtures whose components have a common first marginal: the label of the component is then independent of the first
variable. -/

namespace BMI.Bmm

open MeasureTheory InformationTheory

variable {X Y : Type} [MeasurableSpace X] [MeasurableSpace Y] {m : ℕ}

/-- A point with a label in the second part. -/
def labelY (j : Fin m) (z : X × Y) : X × (Y × Fin m) := (z.1, (z.2, j))

theorem measurable_labelY (j : Fin m) : Measurable (labelY (X := X) (Y := Y) j) := by
  unfold labelY
  fun_prop

/-- The mutual information of the first part with the second part and the label. -/
theorem mutualInfo_labelY (p : Fin m → ℝ) (h0 : ∀ j, 0 ≤ p j) (h1 : ∑ j, p j = 1) (P : Fin m → Measure (X × Y))
    [∀ j, IsProbabilityMeasure (P j)] (μ : Measure X) [IsProbabilityMeasure μ] (hμ : ∀ j, (P j).fst = μ)
    (hfin : ∀ j, 0 < p j → mutualInfo (P j) ≠ ⊤) :
    mutualInfo (mixtureLaw p fun j => (P j).map (labelY j)) = ENNReal.ofReal (∑ j, p j * (mutualInfo (P j)).toReal) := by
  classical
  have h1' : (List.ofFn p).sum = 1 := by rw [List.sum_ofFn, h1]
  haveI : ∀ j, IsProbabilityMeasure ((P j).map (labelY j)) := fun j =>
    Measure.isProbabilityMeasure_map (measurable_labelY j).aemeasurable
  set Q := mixtureLaw p fun j => (P j).map (labelY j) with hQ
  haveI : IsProbabilityMeasure Q := mixtureLaw_prob h0 h1' _
  have hQ1 : Q.fst = μ := by
    rw [hQ, Measure.fst, mixtureLaw_map _ _ measurable_fst]
    have : (fun j => ((P j).map (labelY j)).map Prod.fst) = fun _ => μ := by
      funext j
      rw [Measure.map_map measurable_fst (measurable_labelY j), ← hμ j]
      rfl
    rw [this, mixtureLaw_const p h0 h1]
  have hQ2 : Q.snd = mixtureLaw p fun j => (P j).snd.map fun y => (y, j) := by
    rw [hQ, Measure.snd, mixtureLaw_map _ _ measurable_snd]
    congr 1
    funext j
    rw [Measure.map_map measurable_snd (measurable_labelY j), Measure.snd, Measure.map_map (by fun_prop) measurable_snd]
    rfl
  haveI : SFinite (mixtureLaw p fun j => (P j).snd.map fun y => (y, j)) := by
    rw [← hQ2]
    infer_instance
  set d : Fin m → X × Y → ENNReal := fun j => (P j).rnDeriv (μ.prod (P j).snd) with hd
  have hdm : ∀ j, Measurable (d j) := fun j => Measure.measurable_rnDeriv _ _
  set r : X × (Y × Fin m) → ℝ := fun w => (d w.2.2 (w.1, w.2.1)).toReal with hr
  have hrm : Measurable r := by
    have e : r = fun w => ∑ j : Fin m, if w.2.2 = j then (d j (w.1, w.2.1)).toReal else 0 := by
      funext w
      rw [hr, Finset.sum_eq_single w.2.2]
      · rw [if_pos rfl]
      · intro j _ hj
        rw [if_neg fun h' => hj h'.symm]
      · simp
    rw [e]
    refine Finset.measurable_sum _ fun j _ => Measurable.ite ?_ ?_ measurable_const
    · exact (measurable_snd.comp measurable_snd) (measurableSet_singleton j)
    · exact ((hdm j).comp (by fun_prop)).ennreal_toReal
  have hr0 : ∀ w, 0 ≤ r w := fun w => ENNReal.toReal_nonneg
  have hmi : ∀ j, mutualInfo (P j) = klDiv (P j) (μ.prod (P j).snd) := fun j => by rw [mutualInfo, hμ]
  have hac : ∀ j, 0 < p j → P j ≪ μ.prod (P j).snd := fun j hj => (klDiv_ne_top_iff.1 (hmi j ▸ hfin j hj)).1
  have hdens : ∀ j, 0 < p j → P j = (μ.prod (P j).snd).withDensity (d j) := fun j hj =>
    (Measure.withDensity_rnDeriv_eq _ _ (hac j hj)).symm
  have hlt : ∀ j, ∀ᵐ z ∂(μ.prod (P j).snd), d j z < ⊤ := fun j => Measure.rnDeriv_lt_top _ _
  have hP : Q = (Q.fst.prod Q.snd).withDensity fun w => ENNReal.ofReal (r w) := by
    refine Measure.ext_of_lintegral _ fun f hf => ?_
    have hrf : Measurable fun w => ENNReal.ofReal (r w) * f w := hrm.ennreal_ofReal.mul hf
    rw [lintegral_withDensity_eq_lintegral_mul _ hrm.ennreal_ofReal hf]
    simp only [Pi.mul_apply]
    rw [lintegral_prod_symm _ hrf.aemeasurable, hQ1, hQ2, hQ, lintegral_mixture, lintegral_mixture]
    refine Finset.sum_congr rfl fun i _ => ?_
    rcases (h0 i).eq_or_lt with hi | hi
    · rw [← hi]
      simp
    congr 1
    rw [lintegral_map hf (measurable_labelY i), lintegral_map (hrf.lintegral_prod_left') (by fun_prop)]
    conv_lhs => rw [hdens i hi]
    have hfl : Measurable fun z => f (labelY i z) := hf.comp (measurable_labelY i)
    rw [lintegral_withDensity_eq_lintegral_mul _ (hdm i) hfl]
    have hmeas : Measurable fun z => ENNReal.ofReal (d i z).toReal * f (labelY i z) :=
      (hdm i).ennreal_toReal.ennreal_ofReal.mul hfl
    refine Eq.trans ?_ (lintegral_prod_symm (fun z => ENNReal.ofReal (d i z).toReal * f (labelY i z)) hmeas.aemeasurable)
    refine lintegral_congr_ae ?_
    filter_upwards [hlt i] with z hz
    simp only [Pi.mul_apply]
    rw [ENNReal.ofReal_toReal hz.ne]
  have hlog : ∀ j, 0 < p j → Integrable (fun w => Real.log (r w)) ((P j).map (labelY j)) ∧
      ∫ w, Real.log (r w) ∂((P j).map (labelY j)) = (mutualInfo (P j)).toReal := by
    intro j hj
    have hint := (klDiv_ne_top_iff.1 (hmi j ▸ hfin j hj)).2
    have hmi' : (mutualInfo (P j)).toReal = ∫ z, llr (P j) (μ.prod (P j).snd) z ∂(P j) := by
      rw [hmi]
      exact toReal_klDiv_of_measure_eq (hac j hj) (by simp)
    have hm : AEStronglyMeasurable (fun w => Real.log (r w)) ((P j).map (labelY j)) :=
      (Real.measurable_log.comp hrm).aestronglyMeasurable
    exact ⟨(integrable_map_measure hm (measurable_labelY j).aemeasurable).2 hint,
      (integral_map (measurable_labelY j).aemeasurable hm).trans hmi'.symm⟩
  obtain ⟨hi1, hi2⟩ := integral_mixture p h0 (fun j => (P j).map (labelY j)) (fun w => Real.log (r w)) fun j hj => (hlog j hj).1
  rw [(mutualInfo_of_ratio Q r hrm hr0 hP hi1).1, hi2]
  congr 1
  refine Finset.sum_congr rfl fun j _ => ?_
  rcases (h0 j).eq_or_lt with hj | hj
  · rw [← hj]
    simp
  · rw [(hlog j hj).2]

/-- The first marginal of the mixture. -/
theorem mixtureLaw_fst (p : Fin m → ℝ) (h0 : ∀ j, 0 ≤ p j) (h1 : ∑ j, p j = 1) (P : Fin m → Measure (X × Y))
    (μ : Measure X) (hμ : ∀ j, (P j).fst = μ) : (mixtureLaw p P).fst = μ := by
  rw [Measure.fst, mixtureLaw_map _ _ measurable_fst]
  have : (fun j => (P j).map Prod.fst) = fun _ => μ := funext hμ
  rw [this, mixtureLaw_const p h0 h1]

/-- A mixture of components with a common first marginal encodes at most the mean of what its components encode. -/
theorem mutualInfo_mixture_channel_le (p : Fin m → ℝ) (h0 : ∀ j, 0 ≤ p j) (h1 : ∑ j, p j = 1) (P : Fin m → Measure (X × Y))
    [∀ j, IsProbabilityMeasure (P j)] (μ : Measure X) [IsProbabilityMeasure μ] (hμ : ∀ j, (P j).fst = μ) :
    mutualInfo (mixtureLaw p P) ≤ ∑ j, ENNReal.ofReal (p j) * mutualInfo (P j) := by
  by_cases hfin : ∃ j, 0 < p j ∧ mutualInfo (P j) = ⊤
  · obtain ⟨j, hj, htop⟩ := hfin
    refine le_top.trans (top_le_iff.2 ?_).ge
    rw [ENNReal.sum_eq_top]
    exact ⟨j, Finset.mem_univ j, by rw [htop, ENNReal.mul_top (by simpa using hj)]⟩
  · push Not at hfin
    have h1' : (List.ofFn p).sum = 1 := by rw [List.sum_ofFn, h1]
    haveI : ∀ j, IsProbabilityMeasure ((P j).map (labelY j)) := fun j =>
      Measure.isProbabilityMeasure_map (measurable_labelY j).aemeasurable
    haveI : IsProbabilityMeasure (mixtureLaw p fun j => (P j).map (labelY j)) := mixtureLaw_prob h0 h1' _
    have e : mixtureLaw p P = (mixtureLaw p fun j => (P j).map (labelY j)).map (Prod.map id Prod.fst) := by
      rw [mixtureLaw_map _ _ (measurable_id.prodMap measurable_fst)]
      congr 1
      funext j
      rw [Measure.map_map (measurable_id.prodMap measurable_fst) (measurable_labelY j)]
      exact Measure.map_id.symm
    have h := mutualInfo_map_le (mixtureLaw p fun j => (P j).map (labelY j)) measurable_id measurable_fst
    rw [← e, mutualInfo_labelY p h0 h1 P μ hμ hfin,
      ENNReal.ofReal_sum_of_nonneg fun j _ => mul_nonneg (h0 j) ENNReal.toReal_nonneg] at h
    refine h.trans (Finset.sum_le_sum fun j _ => ?_)
    rw [ENNReal.ofReal_mul (h0 j)]
    gcongr
    exact ENNReal.ofReal_toReal_le

/-- It encodes at least this mean less the entropy of the proportions. -/
theorem mutualInfo_mixture_channel_ge (p : Fin m → ℝ) (h0 : ∀ j, 0 ≤ p j) (h1 : ∑ j, p j = 1) (P : Fin m → Measure (X × Y))
    [∀ j, IsProbabilityMeasure (P j)] (μ : Measure X) [IsProbabilityMeasure μ] (hμ : ∀ j, (P j).fst = μ)
    (hfin : ∀ j, 0 < p j → mutualInfo (P j) ≠ ⊤) :
    ENNReal.ofReal (∑ j, p j * (mutualInfo (P j)).toReal - ∑ j, Real.negMulLog (p j)) ≤ mutualInfo (mixtureLaw p P) := by
  have h1' : (List.ofFn p).sum = 1 := by rw [List.sum_ofFn, h1]
  haveI : IsProbabilityMeasure (mixtureLaw p P) := mixtureLaw_prob h0 h1' P
  have htop : mutualInfo (mixtureLaw p P) ≠ ⊤ := by
    refine ne_top_of_le_ne_top ?_ (mutualInfo_mixture_channel_le p h0 h1 P μ hμ)
    rw [Ne, ENNReal.sum_eq_top]
    rintro ⟨j, -, hj⟩
    rcases (h0 j).eq_or_lt with hp | hp
    · rw [← hp] at hj
      simp at hj
    · exact ENNReal.mul_ne_top ENNReal.ofReal_ne_top (hfin j hp) hj
  set M := mixtureLaw p P with hM
  set ν := M.snd with hν
  set Q := μ.prod ν with hQ
  have hfst : M.fst = μ := mixtureLaw_fst p h0 h1 P μ hμ
  have hMI : mutualInfo M = klDiv M Q := by rw [mutualInfo, hfst]
  rw [hMI] at htop
  have hacM := (klDiv_ne_top_iff.1 htop).1
  have hintM := (klDiv_ne_top_iff.1 htop).2
  have hle : ∀ j, ENNReal.ofReal (p j) • P j ≤ M := by
    intro j
    rw [hM, mixtureLaw]
    exact Finset.single_le_sum (f := fun i => ENNReal.ofReal (p i) • P i) (fun _ _ => Measure.zero_le _) (Finset.mem_univ j)
  have hpj : ∀ j, 0 < p j → ENNReal.ofReal (p j) ≠ 0 := fun j hj => by simpa using hj
  have hacPM : ∀ j, 0 < p j → P j ≪ M := fun j hj =>
    (Measure.absolutelyContinuous_smul (hpj j hj)).trans (Measure.absolutelyContinuous_of_le (hle j))
  have hmi : ∀ j, mutualInfo (P j) = klDiv (P j) (μ.prod (P j).snd) := fun j => by rw [mutualInfo, hμ]
  -- the bound for one component
  have hone : ∀ j, 0 < p j → Integrable (llr M Q) (P j) ∧
      Real.log (p j) + (mutualInfo (P j)).toReal ≤ ∫ z, llr M Q z ∂(P j) := by
    intro j hj
    have hint1 : Integrable (llr M Q) (P j) := by
      have := hintM.mono_measure (hle j)
      rwa [integrable_smul_measure (hpj j hj) ENNReal.ofReal_ne_top] at this
    refine ⟨hint1, ?_⟩
    have hacj := (klDiv_ne_top_iff.1 (hmi j ▸ hfin j hj)).1
    have hintj := (klDiv_ne_top_iff.1 (hmi j ▸ hfin j hj)).2
    have hmi' : (mutualInfo (P j)).toReal = ∫ z, llr (P j) (μ.prod (P j).snd) z ∂(P j) := by
      rw [hmi]
      exact toReal_klDiv_of_measure_eq hacj (by simp)
    have hνj : (P j).snd ≪ ν := by
      rw [hν]
      exact (hacPM j hj).map measurable_snd
    set t : Y → ENNReal := (P j).snd.rnDeriv ν with ht
    have htm : Measurable t := Measure.measurable_rnDeriv _ _
    set d : X × Y → ENNReal := (P j).rnDeriv (μ.prod (P j).snd) with hd
    have hdm : Measurable d := Measure.measurable_rnDeriv _ _
    have hνd : (P j).snd = ν.withDensity t := (Measure.withDensity_rnDeriv_eq _ _ hνj).symm
    have hprod : μ.prod (P j).snd = Q.withDensity fun z => t z.2 := by
      conv_lhs => rw [hνd]
      rw [hQ, prod_withDensity_right htm]
    have hPj : P j = Q.withDensity fun z => t z.2 * d z := by
      have h2 : Measurable fun z : X × Y => t z.2 := htm.comp measurable_snd
      calc P j = (μ.prod (P j).snd).withDensity d := (Measure.withDensity_rnDeriv_eq _ _ hacj).symm
        _ = (Q.withDensity fun z => t z.2).withDensity d := by rw [hprod]
        _ = Q.withDensity fun z => t z.2 * d z := (withDensity_mul _ h2 hdm).symm
    have hbound : ∀ᵐ z ∂Q, ENNReal.ofReal (p j) * (t z.2 * d z) ≤ M.rnDeriv Q z := by
      have hmm : Measurable fun z : X × Y => t z.2 * d z := (htm.comp measurable_snd).mul hdm
      have e : ENNReal.ofReal (p j) • P j = Q.withDensity fun z => ENNReal.ofReal (p j) * (t z.2 * d z) := by
        conv_lhs => rw [hPj]
        rw [← withDensity_smul _ hmm]
        rfl
      have hl := hle j
      rw [e, ← Measure.withDensity_rnDeriv_eq _ _ hacM] at hl
      refine ae_le_of_forall_setLIntegral_le_of_sigmaFinite (hmm.const_mul _) fun s hs _ => ?_
      have := hl s
      rwa [withDensity_apply _ hs, withDensity_apply _ hs] at this
    have hacPQ : P j ≪ Q := (hacPM j hj).trans hacM
    have htpos : ∀ᵐ z ∂(P j), 0 < t z.2 ∧ t z.2 < ⊤ := by
      have h2 : ∀ᵐ y ∂(P j).snd, 0 < t y ∧ t y < ⊤ := by
        filter_upwards [Measure.rnDeriv_pos hνj, hνj.ae_le (Measure.rnDeriv_lt_top (P j).snd ν)] with y a b
        exact ⟨a, b⟩
      exact ae_of_ae_map measurable_snd.aemeasurable h2
    have hdpos : ∀ᵐ z ∂(P j), 0 < d z ∧ d z < ⊤ := by
      filter_upwards [Measure.rnDeriv_pos hacj, hacj.ae_le (Measure.rnDeriv_lt_top (P j) (μ.prod (P j).snd))] with z a b
      exact ⟨a, b⟩
    -- the inverse of the density of the second marginal
    have htm' : Measurable fun y => (t y)⁻¹ := htm.inv
    have hinv : ∫⁻ z, (t z.2)⁻¹ ∂(P j) ≤ 1 := by
      have e : ∫⁻ z, (t z.2)⁻¹ ∂(P j) = ∫⁻ y, (t y)⁻¹ ∂(P j).snd := by
        rw [Measure.snd, lintegral_map htm' measurable_snd]
      rw [e]
      conv_lhs => rw [hνd]
      rw [lintegral_withDensity_eq_lintegral_mul _ htm htm']
      calc ∫⁻ y, (t * fun y => (t y)⁻¹) y ∂ν ≤ ∫⁻ _, 1 ∂ν := by
            refine lintegral_mono fun y => ?_
            simp only [Pi.mul_apply]
            exact ENNReal.mul_inv_le_one _
        _ ≤ 1 := by simp
    have hinvm : Measurable fun z : X × Y => (t z.2)⁻¹.toReal := ((htm.comp measurable_snd).inv).ennreal_toReal
    have hintinv : Integrable (fun z : X × Y => (t z.2)⁻¹.toReal) (P j) :=
      integrable_toReal_of_lintegral_ne_top ((htm.comp measurable_snd).inv).aemeasurable
        (ne_top_of_le_ne_top ENNReal.one_ne_top hinv)
    have hinv1 : ∫ z, (t z.2)⁻¹.toReal ∂(P j) ≤ 1 := by
      have hm2 : Measurable fun z : X × Y => (t z.2)⁻¹ := htm'.comp measurable_snd
      rw [integral_toReal hm2.aemeasurable]
      · exact ENNReal.toReal_le_of_le_ofReal zero_le_one (by simpa using hinv)
      · filter_upwards [htpos] with z hz
        exact ENNReal.inv_lt_top.2 hz.1
    have hpt : ∀ᵐ z ∂(P j), Real.log (p j) + llr (P j) (μ.prod (P j).snd) z + (1 - (t z.2)⁻¹.toReal) ≤ llr M Q z := by
      filter_upwards [hacPQ.ae_le hbound, htpos, hdpos, hacPQ.ae_le (Measure.rnDeriv_lt_top M Q)] with z hb hz hz' hzM
      have h3 : p j * ((t z.2).toReal * (d z).toReal) ≤ (M.rnDeriv Q z).toReal := by
        have := ENNReal.toReal_mono hzM.ne hb
        rwa [ENNReal.toReal_mul, ENNReal.toReal_mul, ENNReal.toReal_ofReal hj.le] at this
      have ht0 := ENNReal.toReal_pos hz.1.ne' hz.2.ne
      have hd0 := ENNReal.toReal_pos hz'.1.ne' hz'.2.ne
      have h4 := Real.log_le_log (by positivity) h3
      rw [Real.log_mul hj.ne' (by positivity), Real.log_mul ht0.ne' hd0.ne'] at h4
      have h5 := Real.one_sub_inv_le_log_of_pos ht0
      rw [llr, llr, ENNReal.toReal_inv]
      linarith
    calc Real.log (p j) + (mutualInfo (P j)).toReal
        ≤ Real.log (p j) + (mutualInfo (P j)).toReal + (1 - ∫ z, (t z.2)⁻¹.toReal ∂(P j)) := by linarith
      _ = ∫ z, (Real.log (p j) + llr (P j) (μ.prod (P j).snd) z + (1 - (t z.2)⁻¹.toReal)) ∂(P j) := by
          have ha : Integrable (fun z => Real.log (p j) + llr (P j) (μ.prod (P j).snd) z) (P j) :=
            (integrable_const _).add hintj
          have hb : Integrable (fun z : X × Y => 1 - (t z.2)⁻¹.toReal) (P j) := (integrable_const _).sub hintinv
          rw [integral_add ha hb, integral_add (integrable_const _) hintj, integral_sub (integrable_const _) hintinv, hmi']
          simp
      _ ≤ ∫ z, llr M Q z ∂(P j) :=
          integral_mono_ae (((integrable_const _).add hintj).add ((integrable_const _).sub hintinv)) hint1 hpt
  obtain ⟨-, hi2⟩ := integral_mixture p h0 P (llr M Q) fun j hj => (hone j hj).1
  have hval : (mutualInfo M).toReal = ∑ j, p j * ∫ z, llr M Q z ∂(P j) := by
    rw [hMI, toReal_klDiv_of_measure_eq hacM (by simp), ← hi2]
  have htop' : mutualInfo M ≠ ⊤ := by rwa [hMI]
  rw [← ENNReal.ofReal_toReal htop', hval]
  refine ENNReal.ofReal_le_ofReal ?_
  rw [← Finset.sum_sub_distrib]
  refine Finset.sum_le_sum fun j _ => ?_
  rcases (h0 j).eq_or_lt with hj | hj
  · rw [← hj]
    simp
  · have := mul_le_mul_of_nonneg_left (hone j hj).2 hj.le
    rw [Real.negMulLog]
    linarith

end BMI.Bmm
