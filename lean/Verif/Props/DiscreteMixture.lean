import Verif.Lemmas.Additive
import Verif.Lemmas.OneDim
import Verif.Lemmas.IdealWitness
import Verif.Props.Compose
import Verif.Props.AdditiveUniform

/-! Property C05 (discrete-uniform mixtures), over /repo/src/bmi/samplers/_discrete_continuous.py:44-113. -/

namespace BMI.Samplers

open MeasureTheory

variable {Key : Type}

/-- Unit masses at `0, ..., m - 1`. -/
noncomputable def points (m : ℤ) : Measure ℝ := ∑ i ∈ Finset.Ico 0 m, Measure.dirac (i : ℝ)

instance (m : ℤ) : IsFiniteMeasure (points m) := by unfold points; infer_instance

/-- How many `i` in `0, ..., m - 1` satisfy `i ≤ y ≤ i + 2`. -/
noncomputable def cover (m : ℤ) (y : ℝ) : ℝ :=
  ∑ i ∈ Finset.Ico 0 m, (Set.Icc (i : ℝ) (i + 2)).indicator (fun _ => (1 : ℝ)) y

theorem measurable_cover (m : ℤ) : Measurable (cover m) := by
  unfold cover
  exact Finset.measurable_fun_sum _ fun i _ => measurable_const.indicator measurableSet_Icc

theorem cover_nonneg (m : ℤ) (y : ℝ) : 0 ≤ cover m y :=
  Finset.sum_nonneg fun _ _ => Set.indicator_nonneg (fun _ _ => zero_le_one) _

theorem cover_eq (m : ℤ) (y : ℝ) (hy : ((⌊y⌋ : ℤ) : ℝ) ≠ y) :
    cover m y = (((Finset.Ico 0 m).filter fun i => i = ⌊y⌋ - 1 ∨ i = ⌊y⌋).card : ℝ) := by
  unfold cover
  rw [Finset.card_filter]
  push_cast
  refine Finset.sum_congr rfl fun i _ => ?_
  rw [Set.indicator_apply]
  have h1 := Int.floor_le y
  have h2 := Int.lt_floor_add_one y
  have h3 : (⌊y⌋ : ℝ) < y := lt_of_le_of_ne h1 hy
  have : y ∈ Set.Icc (i : ℝ) (i + 2) ↔ (i = ⌊y⌋ - 1 ∨ i = ⌊y⌋) := by
    rw [Set.mem_Icc]
    constructor
    · rintro ⟨h4, h5⟩
      have h6 : i ≤ ⌊y⌋ := Int.le_floor.2 h4
      have h7 : ⌊y⌋ - 2 < i := by
        have : (⌊y⌋ : ℝ) - 2 < i := by linarith
        exact_mod_cast this
      omega
    · rintro (h | h) <;> subst h <;> push_cast <;> constructor <;> linarith
  simp only [this]

theorem cover_log (m : ℤ) (y : ℝ) (hy : ((⌊y⌋ : ℤ) : ℝ) ≠ y) :
    cover m y * Real.log (cover m y) = (Set.Icc (1 : ℝ) m).indicator (fun _ => 2 * Real.log 2) y := by
  rw [cover_eq m y hy, Set.indicator_apply]
  have h1 := Int.floor_le y
  have h2 := Int.lt_floor_add_one y
  have h3 : (⌊y⌋ : ℝ) < y := lt_of_le_of_ne h1 hy
  by_cases h : 1 ≤ ⌊y⌋ ∧ ⌊y⌋ < m
  · have e : (Finset.Ico 0 m).filter (fun i => i = ⌊y⌋ - 1 ∨ i = ⌊y⌋) = {⌊y⌋ - 1, ⌊y⌋} := by
      ext i
      simp only [Finset.mem_filter, Finset.mem_Ico, Finset.mem_insert, Finset.mem_singleton]
      omega
    rw [e, Finset.card_pair (by omega), if_pos]
    · norm_num
    · constructor
      · have : (1 : ℝ) ≤ ⌊y⌋ := by exact_mod_cast h.1
        linarith
      · have : (⌊y⌋ : ℝ) + 1 ≤ m := by exact_mod_cast h.2
        linarith
  · have hc : ((Finset.Ico 0 m).filter fun i => i = ⌊y⌋ - 1 ∨ i = ⌊y⌋).card ≤ 1 := by
      rw [Finset.card_le_one]
      intro a ha b hb
      simp only [Finset.mem_filter, Finset.mem_Ico] at ha hb
      omega
    rw [if_neg]
    · interval_cases ((Finset.Ico 0 m).filter fun i => i = ⌊y⌋ - 1 ∨ i = ⌊y⌋).card <;> simp
    · rintro ⟨h4, h5⟩
      apply h
      constructor
      · exact Int.le_floor.2 (by exact_mod_cast h4)
      · have : (⌊y⌋ : ℝ) < m := by linarith
        exact_mod_cast this

/-- Non-integers are almost everywhere. -/
theorem ae_not_int : ∀ᵐ y : ℝ, ((⌊y⌋ : ℤ) : ℝ) ≠ y := by
  have h : (Set.range fun i : ℤ => (i : ℝ)).Countable := Set.countable_range _
  have := h.ae_notMem (volume : Measure ℝ)
  filter_upwards [this] with y hy h
  exact hy ⟨_, h⟩

/-- The law the class documents: `X` uniform on `0, ..., m - 1`, `Y = X + U`, `U` uniform on `[0, 2]`. -/
noncomputable def mixtureLaw (m : ℤ) : Measure (ℝ × ℝ) :=
  ((randintLaw 0 m).prod (uniformLaw 0 2)).map fun z => ((z.1 : ℝ), (z.1 : ℝ) + z.2)

theorem measurable_mixture : Measurable fun z : ℤ × ℝ => ((z.1 : ℝ), (z.1 : ℝ) + z.2) := by
  have : Measurable fun i : ℤ => (i : ℝ) := measurable_from_top
  fun_prop

theorem mixtureLaw_eq (m : ℤ) (hm : 0 < m) :
    mixtureLaw m = additiveLaw ((points m).withDensity fun _ => ENNReal.ofReal (1 / m)) (uniformLaw 0 2) := by
  have pu : IsProbabilityMeasure (uniformLaw 0 2) := isProbabilityMeasure_uniformLaw (by norm_num)
  have pr : IsProbabilityMeasure (randintLaw 0 m) := isProbabilityMeasure_randintLaw hm
  have hc : Measurable fun i : ℤ => (i : ℝ) := measurable_from_top
  have e1 : (randintLaw 0 m).map (fun i : ℤ => (i : ℝ)) = (points m).withDensity fun _ => ENNReal.ofReal (1 / m) := by
    rw [withDensity_const]
    unfold randintLaw points
    rw [← Measure.mapₗ_apply_of_measurable hc, map_sum, Finset.smul_sum]
    refine Finset.sum_congr rfl fun i _ => ?_
    rw [map_smul, Measure.mapₗ_apply_of_measurable hc, Measure.map_dirac' hc]
    simp
  rw [← e1]
  unfold mixtureLaw additiveLaw
  have e2 : (uniformLaw 0 2) = (uniformLaw 0 2).map id := by simp
  rw [e2, Measure.map_prod_map _ _ hc measurable_id, Measure.map_map measurable_shear (hc.prodMap measurable_id), ← e2]
  rfl

theorem mixtureLaw_mi (m : ℤ) (hm : 0 < m) :
    mutualInfo (mixtureLaw m) = ENNReal.ofReal (Real.log m - (m - 1) * Real.log 2 / m) ∧
      0 ≤ Real.log m - (m - 1) * Real.log 2 / m := by
  have pu : IsProbabilityMeasure (uniformLaw 0 2) := isProbabilityMeasure_uniformLaw (by norm_num)
  have pr : IsProbabilityMeasure (randintLaw 0 m) := isProbabilityMeasure_randintLaw hm
  have hP : IsProbabilityMeasure (mixtureLaw m) := Measure.isProbabilityMeasure_map measurable_mixture.aemeasurable
  have hm0 : (0 : ℝ) < m := by exact_mod_cast hm
  let v : ℝ → ℝ := (Set.Icc 0 2).indicator fun _ => 1 / 2
  have hv : Measurable v := measurable_const.indicator measurableSet_Icc
  have hv0 : ∀ x, 0 ≤ v x := fun x => Set.indicator_nonneg (fun _ _ => by norm_num) x
  have ev : uniformLaw 0 2 = volume.withDensity fun x => ENNReal.ofReal (v x) := by
    rw [uniformLaw_density]
    congr 1
    funext x
    simp only [v, Set.indicator_apply]
    split_ifs
    · norm_num
    · simp
  have hdens : mixtureLaw m
      = ((points m).prod volume).withDensity fun z => ENNReal.ofReal (1 / m * v (z.2 - z.1)) := by
    rw [mixtureLaw_eq m hm]
    have i2 : SFinite ((volume : Measure ℝ).withDensity fun x => ENNReal.ofReal (v x)) := by rw [← ev]; infer_instance
    rw [ev, additiveLaw_density _ _ _ measurable_const hv.ennreal_ofReal]
    congr 1
    funext z
    rw [ENNReal.ofReal_mul (by positivity)]
  have hfst : (mixtureLaw m).fst = (points m).withDensity fun _ => ENNReal.ofReal (1 / m) := by
    rw [mixtureLaw_eq m hm, additiveLaw_fst]
  set c := 1 / (2 * (m : ℝ)) with hc
  have hc0 : 0 < c := by positivity
  have hsnd : (mixtureLaw m).snd = volume.withDensity fun y => ENNReal.ofReal (c * cover m y) := by
    rw [hdens, snd_withDensity _ _ _ (by fun_prop)]
    congr 1
    funext y
    unfold points cover
    rw [lintegral_finset_sum_measure, Finset.mul_sum, ENNReal.ofReal_sum_of_nonneg (fun i _ =>
      mul_nonneg hc0.le (Set.indicator_nonneg (fun _ _ => zero_le_one) _))]
    refine Finset.sum_congr rfl fun i _ => ?_
    rw [lintegral_dirac' _ (by fun_prop)]
    congr 1
    simp only [v, Set.indicator_apply, Set.mem_Icc]
    by_cases h : (i : ℝ) ≤ y ∧ y ≤ i + 2
    · rw [if_pos h, if_pos ⟨by linarith [h.1], by linarith [h.2]⟩, hc]
      field_simp
    · rw [if_neg h, if_neg (fun h' => h ⟨by linarith [h'.1], by linarith [h'.2]⟩)]
      simp
  have hov := measurable_cover m
  have hov' : Measurable fun y => Real.log (cover m y) := hov.log
  have hmem : ∀ᵐ z ∂(mixtureLaw m), v (z.2 - z.1) ≠ 0 := by
    rw [hdens, ae_withDensity_iff (by fun_prop)]
    refine Filter.Eventually.of_forall fun z hz h => hz ?_
    rw [h, mul_zero, ENNReal.ofReal_zero]
  have hpos : ∀ᵐ y ∂(mixtureLaw m).snd, cover m y ≠ 0 := by
    rw [hsnd, ae_withDensity_iff (by fun_prop)]
    refine Filter.Eventually.of_forall fun z hz h => hz ?_
    rw [h, mul_zero, ENNReal.ofReal_zero]
  have hpos' : ∀ᵐ z ∂(mixtureLaw m), cover m z.2 ≠ 0 := ae_of_ae_map measurable_snd.aemeasurable hpos
  have hlog : (fun z : ℝ × ℝ => Real.log (1 / m * v (z.2 - z.1) / (1 / m * (c * cover m z.2))))
      =ᵐ[mixtureLaw m] fun z => Real.log m - Real.log (cover m z.2) := by
    filter_upwards [hmem, hpos'] with z hz hz'
    have h3 : v (z.2 - z.1) = 1 / 2 := Set.indicator_of_mem (Set.mem_of_indicator_ne_zero hz) _
    rw [h3, mul_div_mul_left _ _ (by positivity), ← Real.log_div hm0.ne' hz', hc]
    congr 1
    field_simp
  have hae : (fun y => cover m y * Real.log (cover m y)) =ᵐ[volume]
      (Set.Icc (1 : ℝ) m).indicator (fun _ => 2 * Real.log 2) := by
    filter_upwards [ae_not_int] with y hy using cover_log m y hy
  have hintv : Integrable (fun y => cover m y * Real.log (cover m y)) := by
    rw [integrable_congr hae]
    exact (integrable_indicator_iff measurableSet_Icc).2 (integrableOn_const (by simp))
  have hdm : Measurable fun y => (c * cover m y).toNNReal := by fun_prop
  have hsnd' : (mixtureLaw m).snd = volume.withDensity fun y => ((c * cover m y).toNNReal : ENNReal) := hsnd
  have hcoe : ∀ y, ((c * cover m y).toNNReal : ℝ) = c * cover m y := fun y =>
    Real.coe_toNNReal _ (mul_nonneg hc0.le (cover_nonneg m y))
  have hsm : (fun y => (c * cover m y).toNNReal • Real.log (cover m y))
        = fun y => c * (cover m y * Real.log (cover m y)) := by
      funext y
      rw [NNReal.smul_def, hcoe, smul_eq_mul]
      ring
  have hint2 : Integrable (fun y => Real.log (cover m y)) (mixtureLaw m).snd := by
    rw [hsnd', integrable_withDensity_iff_integrable_smul hdm, hsm]
    exact hintv.const_mul _
  have hval2 : ∫ y, Real.log (cover m y) ∂(mixtureLaw m).snd = (m - 1) * Real.log 2 / m := by
    rw [hsnd', integral_withDensity_eq_integral_smul hdm, hsm, integral_const_mul, integral_congr_ae hae,
      integral_indicator_const _ measurableSet_Icc]
    have : (1 : ℝ) ≤ m := by exact_mod_cast hm
    rw [Real.volume_real_Icc_of_le this, hc, smul_eq_mul]
    field_simp
  have hmp : Measurable (Prod.snd : ℝ × ℝ → ℝ) := measurable_snd
  have hint3 : Integrable (fun z : ℝ × ℝ => Real.log (cover m z.2)) (mixtureLaw m) :=
    (integrable_map_measure (hov'.aestronglyMeasurable) hmp.aemeasurable).1 hint2
  have hval3 : ∫ z, Real.log (cover m z.2) ∂(mixtureLaw m) = (m - 1) * Real.log 2 / m := by
    rw [← hval2]
    exact (integral_map hmp.aemeasurable hov'.aestronglyMeasurable).symm
  have hint4 : Integrable (fun z : ℝ × ℝ => Real.log m - Real.log (cover m z.2)) (mixtureLaw m) :=
    (integrable_const _).sub hint3
  have main := mutualInfo_of_density (points m) volume (mixtureLaw m) (fun z => 1 / m * v (z.2 - z.1)) (fun _ => 1 / m)
    (fun y => c * cover m y) (by fun_prop) measurable_const (hov.const_mul c)
    (fun z => mul_nonneg (by positivity) (hv0 _)) (fun _ => by positivity)
    (fun y => mul_nonneg hc0.le (cover_nonneg m y)) hdens hfst hsnd
    ((integrable_congr hlog).2 hint4)
  rw [integral_congr_ae hlog, integral_sub (integrable_const _) hint3, hval3] at main
  simpa using main

/-- **C05**: for `m ≥ 1` the sampler is correct: `sample` returns independent draws of `(X, X + U)` with `X` uniform on
`0, ..., m - 1` and `U` uniform on `[0, 2]`, and the reported number is their mutual information. -/
theorem discreteUniformMixture_correct [MeasurableSpace Key] (R : JaxRandom Key) (κ : Measure Key)
    (hR : IdealRandom R κ) (m : ℤ) (hm : 0 < m) :
    ∃ s, discreteUniformMixture R m = .ok s ∧ Correct R κ s 1 1 (liftPair (mixtureLaw m)) := by
  have pk := hR.prob
  have pu : IsProbabilityMeasure (uniformLaw 0 2) := isProbabilityMeasure_uniformLaw (by norm_num)
  have pr : IsProbabilityMeasure (randintLaw 0 m) := isProbabilityMeasure_randintLaw hm
  have hP : IsProbabilityMeasure (mixtureLaw m) := Measure.isProbabilityMeasure_map measurable_mixture.aemeasurable
  obtain ⟨hmi, h0⟩ := mixtureLaw_mi m hm
  obtain ⟨s, hs⟩ : ∃ s, discreteUniformMixture R m = .ok s := by
    unfold discreteUniformMixture
    rw [if_neg (not_le.2 hm)]
    exact ⟨_, rfl⟩
  have hw := discreteUniformMixture_wellShaped R m s hs
  have hs' := hs
  unfold discreteUniformMixture at hs'
  rw [if_neg (not_le.2 hm)] at hs'
  obtain rfl := Except.ok.inj hs'
  refine ⟨_, hs, inferInstance, hw, fun n z => rfl, fun n => ?_, h0, ?_⟩
  · obtain ⟨m1, l1⟩ := hR.randint n 1 0 m hm
    obtain ⟨m2, l2⟩ := hR.uniform n 1 0 2 (by norm_num)
    obtain ⟨hm, hl⟩ := two_draws hR.split _ _ n _ _ m1 m2 l1 l2 _ measurable_mixture
    refine ⟨_, hm, fun k => ?_, hl⟩
    simp only [castToRng]
    have e : ∀ (x : Fin n → Fin 1 → ℝ), x = fun i => single (x i 0) := by
      intro x
      funext i j
      rw [Subsingleton.elim j 0]
      rfl
    rw [e (fun i j => ((R.randint _ n 1 0 m i j : ℤ) : ℝ)), e (fun i j => _ + _)]
    rfl
  · rw [mutualInfo_liftPair]
    exact hmi

example : ∃ s, discreteUniformMixture tree 5 = .ok s ∧ Correct tree treeLaw s 1 1 (liftPair (mixtureLaw 5)) :=
  discreteUniformMixture_correct tree treeLaw tree_ideal 5 (by norm_num)

/-- **C05**: a non-positive number of values is rejected. -/
theorem discreteUniformMixture_rejects (R : JaxRandom Key) (m : ℤ) (hm : m ≤ 0) :
    discreteUniformMixture R m = .error .valueError := by
  unfold discreteUniformMixture
  rw [if_pos hm]

example : discreteUniformMixture tree (-1) = .error .valueError := discreteUniformMixture_rejects _ _ (by norm_num)

/-- **C05**: the multivariate sampler is correct for independent coordinates and reports the sum of the numbers of the
coordinates. -/
theorem multivariateDiscreteUniformMixture_correct [MeasurableSpace Key] (R : JaxRandom Key) (κ : Measure Key)
    (hR : IdealRandom R κ) (ms : List ℤ) (hne : ms ≠ []) (hm : ∀ m ∈ ms, 0 < m) :
    ∃ s, multivariateDiscreteUniformMixture R ms = .ok s ∧
      s.mi = (ms.map fun m : ℤ => Real.log m - (m - 1) * Real.log 2 / m).sum ∧
      s.dimX = .ok ms.length ∧ s.dimY = .ok ms.length ∧
      Correct R κ s (independent (ms.map fun m => ⟨1, 1, liftPair (mixtureLaw m)⟩)).dx
        (independent (ms.map fun m => ⟨1, 1, liftPair (mixtureLaw m)⟩)).dy
        (independent (ms.map fun m => ⟨1, 1, liftPair (mixtureLaw m)⟩)).law := by
  have pk := hR.prob
  have key : ∃ ss, ms.mapM (discreteUniformMixture R) = .ok ss ∧
      (ss.map (·.mi)) = (ms.map fun m : ℤ => Real.log m - (m - 1) * Real.log 2 / m) ∧
      List.Forall₂ (fun s (p : Part) => Correct R κ s p.dx p.dy p.law) ss
        (ms.map fun m => (⟨1, 1, liftPair (mixtureLaw m)⟩ : Part)) := by
    clear hne
    induction ms with
    | nil => exact ⟨[], rfl, rfl, List.Forall₂.nil⟩
    | cons m ms ih =>
      obtain ⟨ss, h1, h2, h3⟩ := ih fun k hk => hm k (List.mem_cons_of_mem _ hk)
      have hm0 := hm m List.mem_cons_self
      obtain ⟨s, h4, h5⟩ := discreteUniformMixture_correct R κ hR m hm0
      have h6 : s.mi = Real.log m - (m - 1) * Real.log 2 / m := by
        unfold discreteUniformMixture at h4
        rw [if_neg (not_le.2 hm0)] at h4
        obtain rfl := Except.ok.inj h4
        rfl
      refine ⟨s :: ss, ?_, ?_, List.Forall₂.cons h5 h3⟩
      · rw [List.mapM_cons, h4, h1]
        rfl
      · rw [List.map_cons, List.map_cons, h2, h6]
  obtain ⟨ss, h1, h2, h3⟩ := key
  have hss : ss ≠ [] := by
    rintro rfl
    cases ms with
    | nil => exact hne rfl
    | cons => simp at h2
  obtain ⟨s, h4, h5, h6, h7, h8⟩ := concatenation_correct R κ hR.split ss _ hss h3
  refine ⟨s, ?_, by rw [h5, h2], ?_, ?_, h8⟩
  · unfold multivariateDiscreteUniformMixture
    rw [h1]
    exact h4
  · rw [h6]; simp [Function.comp_def]
  · rw [h7]; simp [Function.comp_def]

example : ∃ s, multivariateDiscreteUniformMixture tree [3, 4] = .ok s ∧
    s.mi = (Real.log 3 - (3 - 1) * Real.log 2 / 3) + (Real.log 4 - (4 - 1) * Real.log 2 / 4) ∧ s.dimX = .ok 2 := by
  obtain ⟨s, h1, h2, h3, _⟩ := multivariateDiscreteUniformMixture_correct tree treeLaw tree_ideal [3, 4] (by simp)
    (by simp)
  exact ⟨s, h1, by rw [h2]; simp, h3⟩

/-- **C05**: the multivariate sampler rejects an empty list and a list with a non-positive entry. -/
theorem multivariateDiscreteUniformMixture_rejects (R : JaxRandom Key) (ms : List ℤ)
    (h : ms = [] ∨ ∃ m ∈ ms, m ≤ 0) : multivariateDiscreteUniformMixture R ms = .error .valueError := by
  have key : ∀ ms : List ℤ, (∃ m ∈ ms, m ≤ 0) → ms.mapM (discreteUniformMixture R) = .error .valueError := by
    intro ms
    induction ms with
    | nil => simp
    | cons m ms ih =>
      rintro ⟨k, hk, hk0⟩
      rw [List.mapM_cons]
      by_cases hm : m ≤ 0
      · rw [discreteUniformMixture_rejects R m hm]
        rfl
      · obtain ⟨s, hs⟩ : ∃ s, discreteUniformMixture R m = .ok s := by
          unfold discreteUniformMixture
          rw [if_neg hm]
          exact ⟨_, rfl⟩
        have := ih (by
          rcases List.mem_cons.1 hk with rfl | hk
          · exact absurd hk0 hm
          · exact ⟨k, hk, hk0⟩)
        rw [hs, this]
        rfl
  rcases h with rfl | h
  · rfl
  · unfold multivariateDiscreteUniformMixture
    rw [key ms h]
    rfl

example : multivariateDiscreteUniformMixture tree [3, 0] = .error .valueError :=
  multivariateDiscreteUniformMixture_rejects _ _ (.inr ⟨0, by simp, le_rfl⟩)

end BMI.Samplers
