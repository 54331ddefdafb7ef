import Verif.Props.InvertCdf
import Verif.Props.Transforms
import Verif.Props.Multinormal

/-! Properties C19 (continued) and C54: the task `task_bimodal_gaussians`
(/repo/src/bmi/benchmark/tasks/bimodal_gaussians.py). -/

namespace BMI.Search

open BMI.Samplers MeasureTheory ProbabilityTheory Filter

variable {Key : Type}

/-! ## Helpers -/

/-- A continuous, strictly increasing distribution function. -/
structure NiceCdf (F : ℝ → ℝ) : Prop where
  mono : StrictMono F
  cont : Continuous F
  pos : ∀ x, 0 < F x
  lt_one : ∀ x, F x < 1
  atBot : Tendsto F atBot (nhds 0)
  atTop : Tendsto F atTop (nhds 1)

theorem NiceCdf.surj {F : ℝ → ℝ} (h : NiceCdf F) {u : ℝ} (h0 : 0 < u) (h1 : u < 1) : ∃ x, F x = u := by
  obtain ⟨a, ha⟩ := ((h.atBot.eventually (gt_mem_nhds h0))).exists
  obtain ⟨b, hb⟩ := ((h.atTop.eventually (lt_mem_nhds h1))).exists
  exact mem_range_of_exists_le_of_exists_ge h.cont ⟨a, ha.le⟩ ⟨b, hb.le⟩

theorem niceCdf_mixture (p a b : ℝ) (h0 : 0 < p) (h1 : p < 1) :
    NiceCdf fun x => p * normalCdf (x + a) + (1 - p) * normalCdf (x + b) := by
  have hb : Tendsto normalCdf atBot (nhds 0) := by
    have : normalCdf = cdf (gaussianReal 0 1) := funext normalCdf_eq_cdf
    rw [this]
    exact tendsto_cdf_atBot _
  have ht : Tendsto normalCdf atTop (nhds 1) := by
    have : normalCdf = cdf (gaussianReal 0 1) := funext normalCdf_eq_cdf
    rw [this]
    exact tendsto_cdf_atTop _
  have hp : 0 < 1 - p := by linarith
  refine ⟨fun x y hxy => ?_, ?_, fun x => ?_, fun x => ?_, ?_, ?_⟩
  · have e1 := normalCdf_strictMono (show x + a < y + a by linarith)
    have e2 := normalCdf_strictMono (show x + b < y + b by linarith)
    nlinarith
  · have := continuous_normalCdf
    fun_prop
  · have := (normalCdf_mem (x + a)).1
    have := (normalCdf_mem (x + b)).1
    positivity
  · have e1 := (normalCdf_mem (x + a)).2
    have e2 := (normalCdf_mem (x + b)).2
    nlinarith
  · have e1 := (hb.comp (tendsto_atBot_add_const_right _ a tendsto_id)).const_mul p
    have e2 := (hb.comp (tendsto_atBot_add_const_right _ b tendsto_id)).const_mul (1 - p)
    simpa using e1.add e2
  · have e1 := (ht.comp (tendsto_atTop_add_const_right _ a tendsto_id)).const_mul p
    have e2 := (ht.comp (tendsto_atTop_add_const_right _ b tendsto_id)).const_mul (1 - p)
    simpa using e1.add e2

theorem niceCdf_x : NiceCdf bimodalCdfX := by
  have := niceCdf_mixture 0.3 0 (-5) (by norm_num) (by norm_num)
  convert this using 2 with x
  unfold bimodalCdfX
  norm_num [sub_eq_add_neg]

theorem niceCdf_y : NiceCdf bimodalCdfY := by
  have := niceCdf_mixture 0.5 1 (-3) (by norm_num) (by norm_num)
  convert this using 2 with x
  unfold bimodalCdfY
  norm_num [sub_eq_add_neg]

/-! ## C19 and C54 -/

/-- **C54**: the functions inverted by the task are the distribution functions of the two mixtures of normal laws. -/
theorem bimodalCdf_spec (x : ℝ) :
    ENNReal.ofReal (bimodalCdfX x)
      = (ENNReal.ofReal 0.3 • gaussianReal 0 1 + ENNReal.ofReal 0.7 • gaussianReal 5 1) (Set.Iic x) ∧
    ENNReal.ofReal (bimodalCdfY x)
      = (ENNReal.ofReal 0.5 • gaussianReal (-1) 1 + ENNReal.ofReal 0.5 • gaussianReal 3 1) (Set.Iic x) := by
  have shift : ∀ m : ℝ, gaussianReal m 1 (Set.Iic x) = ENNReal.ofReal (normalCdf (x - m)) := by
    intro m
    have h : (gaussianReal 0 1).map (· + m) = gaussianReal m 1 := by
      rw [gaussianReal_map_add_const, zero_add]
    rw [← h, Measure.map_apply (measurable_add_const m) measurableSet_Iic, normalCdf_eq_cdf, ofReal_cdf]
    congr 1
    ext z
    simp [le_sub_iff_add_le]
  simp only [Measure.add_apply, Measure.smul_apply, shift, smul_eq_mul]
  constructor
  · rw [← ENNReal.ofReal_mul (by norm_num), ← ENNReal.ofReal_mul (by norm_num), ← ENNReal.ofReal_add]
    · simp [bimodalCdfX]
    · exact mul_nonneg (by norm_num) (normalCdf_mem _).1.le
    · exact mul_nonneg (by norm_num) (normalCdf_mem _).1.le
  · rw [← ENNReal.ofReal_mul (by norm_num), ← ENNReal.ofReal_mul (by norm_num), ← ENNReal.ofReal_add]
    · simp [bimodalCdfY]
    · exact mul_nonneg (by norm_num) (normalCdf_mem _).1.le
    · exact mul_nonneg (by norm_num) (normalCdf_mem _).1.le

/-- **C19**: with the default bracket and tolerance, the inverse of a distribution function is the exact quantile,
clipped to the interval from -10 to 10, up to half the tolerance. -/
theorem invertCdf_accurate (F : ℝ → ℝ) (hm : StrictMono F) (t : ℝ) :
    ∃ x, invertCdf F (F t) = some x ∧ |x - max (-10) (min 10 t)| ≤ 1e-12 / 2 := by
  obtain ⟨x, hx⟩ := invertMono_terminates_real F (-10) 10 1e-12 (F t) (by norm_num)
  refine ⟨x, hx, ?_⟩
  obtain ⟨hlo, hhi⟩ := invertMono_saturates F (-10) 10 1e-12 (F t) x (by norm_num) (by norm_num) hx
  rcases lt_or_ge t (-10) with h1 | h1
  · rw [min_eq_right (by linarith), max_eq_left h1.le]
    exact hlo fun z hz => hm.monotone (by linarith [hz.1])
  · rcases lt_or_ge 10 t with h2 | h2
    · rw [min_eq_left h2.le, max_eq_right (by norm_num)]
      exact hhi fun z hz => hm (by linarith [hz.2])
    · rw [min_eq_right h2, max_eq_right h1]
      exact invertMono_accurate F (-10) 10 1e-12 (F t) x t (by norm_num) (hm.strictMonoOn _) ⟨h1, h2⟩ rfl hx

example : ∃ x, invertCdf bimodalCdfX (bimodalCdfX 3) = some x ∧ |x - 3| ≤ 1e-12 / 2 := by
  obtain ⟨x, h1, h2⟩ := invertCdf_accurate bimodalCdfX niceCdf_x.mono 3
  exact ⟨x, h1, by norm_num at h2 ⊢; exact h2⟩

/-- The inner law: two uniform variables. -/
theorem uniform_correct [MeasurableSpace Key] (R : JaxRandom Key) (κ : Measure Key) [IsProbabilityMeasure κ]
    (hR : IdealRandom R κ) (c : ℝ) (h1 : -1 < c) (h2 : c < 1) :
    ∃ base s P, bivariateNormal R c 1 1 0 0 = .ok base ∧ normalCdfTask base = .ok s ∧ s.mi = -(1 / 2) * Real.log (1 - c ^ 2) ∧
      Correct R κ s 1 1 P ∧ (∀ᵐ x ∂P.fst, x ∈ {x : Fin 1 → ℝ | x 0 ∈ Set.Ioo (0 : ℝ) 1}) ∧
      (∀ᵐ x ∂P.snd, x ∈ {x : Fin 1 → ℝ | x 0 ∈ Set.Ioo (0 : ℝ) 1}) := by
  obtain ⟨base, e1, hb⟩ := bivariateNormal_correct R κ hR c 1 1 0 0 one_pos one_pos h1 h2
  obtain ⟨s, e2, e3, hs⟩ := normalCdfTask_correct R κ base _ hb
  have hmi : base.mi = -(1 / 2) * Real.log (1 - c ^ 2) := by
    obtain ⟨s', -, e⟩ := bivariateNormal_eq R c 1 1 0 0 one_pos one_pos h1 h2
    rw [e1] at e
    rw [Except.ok.inj e]
    norm_num
  have hcdf : ∀ x, cdf (gaussianReal 0 1) x ∈ Set.Ioo (0 : ℝ) 1 := fun x => by
    rw [← normalCdf_eq_cdf]
    exact normalCdf_mem x
  have hmeas : Measurable (cdf (gaussianReal 0 1)) := (cdf (gaussianReal 0 1)).mono.measurable
  have hmeas' : ∀ d : ℕ, Measurable fun (v : Fin d → ℝ) i => cdf (gaussianReal 0 1) (v i) := fun d =>
    measurable_pi_lambda _ fun i => hmeas.comp (measurable_pi_apply i)
  refine ⟨base, s, _, e1, e2, e3.trans hmi, hs, ?_, ?_⟩
  · rw [map_fst_prodMap _ (hmeas' 1) (hmeas' 1)]
    refine (ae_map_iff (hmeas' 1).aemeasurable ((measurable_pi_apply 0) measurableSet_Ioo)).2 (ae_of_all _ fun x => ?_)
    exact hcdf _
  · rw [map_snd_prodMap _ (hmeas' 1) (hmeas' 1)]
    refine (ae_map_iff (hmeas' 1).aemeasurable ((measurable_pi_apply 0) measurableSet_Ioo)).2 (ae_of_all _ fun x => ?_)
    exact hcdf _

theorem injOn_inverse {F q : ℝ → ℝ} (hF : NiceCdf F) (hq : ∀ x, q (F x) = x) : Set.InjOn q (Set.Ioo 0 1) := by
  rintro u ⟨h0, h1⟩ v ⟨h2, h3⟩ h
  obtain ⟨x, rfl⟩ := hF.surj h0 h1
  obtain ⟨y, rfl⟩ := hF.surj h2 h3
  rw [hq, hq] at h
  rw [h]

/-- **C54**: with exact inverse functions the task has the mutual information of the binormal it is made from. -/
theorem bimodal_exact_correct [MeasurableSpace Key] (R : JaxRandom Key) (κ : Measure Key) [IsProbabilityMeasure κ]
    (hR : IdealRandom R κ) (c : ℝ) (h1 : -1 < c) (h2 : c < 1) (qx qy : ℝ → ℝ) (hqx : Measurable qx) (hqy : Measurable qy)
    (hx : ∀ x, qx (bimodalCdfX x) = x) (hy : ∀ x, qy (bimodalCdfY x) = x) :
    ∃ s P, bimodalWith R qx qy c = .ok s ∧ s.mi = -(1 / 2) * Real.log (1 - c ^ 2) ∧ Correct R κ s 1 1 P := by
  obtain ⟨base, u, P, e1, e2, e3, hu, ha, hb⟩ := uniform_correct R κ hR c h1 h2
  obtain ⟨s, e4, e5, hs⟩ := transformed_correct R κ u P hu (.row (List.map qx)) (.row (List.map qy)) 0 0 le_rfl le_rfl
    (by simp) (by simp) (fun v i => qx (v i)) (fun v i => qy (v i))
    (measurable_pi_lambda _ fun i => hqx.comp (measurable_pi_apply i))
    (measurable_pi_lambda _ fun i => hqy.comp (measurable_pi_apply i)) (acts_map 1 qx) (acts_map 1 qy) _ _
    ((measurable_pi_apply 0) measurableSet_Ioo) ((measurable_pi_apply 0) measurableSet_Ioo) ha hb
    (fun v hv w hw h => funext fun i => by
      rw [Subsingleton.elim i 0]
      exact injOn_inverse niceCdf_x hx hv hw (congrFun h 0))
    (fun v hv w hw h => funext fun i => by
      rw [Subsingleton.elim i 0]
      exact injOn_inverse niceCdf_y hy hv hw (congrFun h 0))
  refine ⟨s, _, ?_, e5.trans e3, hs⟩
  unfold bimodalWith
  rw [e1]
  show (normalCdfTask base >>= fun u => _) = _
  rw [e2]
  exact e4

/-- Exact inverse functions exist. -/
theorem exists_inverse {F : ℝ → ℝ} (hF : NiceCdf F) : ∃ q : ℝ → ℝ, Measurable q ∧ ∀ x, q (F x) = x := by
  have he := hF.cont.measurable.measurableEmbedding hF.mono.injective
  obtain ⟨q, h1, h2⟩ := he.exists_measurable_extend measurable_id fun _ => inferInstance
  exact ⟨q, h1, fun x => congrFun h2 x⟩

example : ∃ qx qy : ℝ → ℝ, ∃ s P, bimodalWith tree qx qy 0.75 = .ok s ∧ Correct tree treeLaw s 1 1 P := by
  obtain ⟨qx, h1, h2⟩ := exists_inverse niceCdf_x
  obtain ⟨qy, h3, h4⟩ := exists_inverse niceCdf_y
  obtain ⟨s, P, e, -, h⟩ := bimodal_exact_correct tree treeLaw tree_ideal 0.75 (by norm_num) (by norm_num) qx qy h1 h3 h2 h4
  exact ⟨qx, qy, s, P, e, h⟩

/-- **C54**: with exact inverse functions the coordinates have the bimodal distribution functions: a standard normal
variable pushed through `normal_cdf` and the inverse of `F` is at most `t` with probability `F t`. -/
theorem bimodal_marginal {F q : ℝ → ℝ} (hF : NiceCdf F) (hq : ∀ x, q (F x) = x) (t : ℝ) :
    gaussianReal 0 1 {x | q (normalCdf x) ≤ t} = ENNReal.ofReal (F t) := by
  have e : {x | q (normalCdf x) ≤ t} = normalCdf ⁻¹' Set.Iic (F t) := by
    ext x
    obtain ⟨z, hz⟩ := hF.surj (normalCdf_mem x).1 (normalCdf_mem x).2
    simp only [Set.mem_setOf_eq, Set.mem_preimage, Set.mem_Iic]
    rw [← hz, hq, hF.mono.le_iff_le]
  rw [e, ← Measure.map_apply continuous_normalCdf.measurable measurableSet_Iic, normalCdf_uniform,
    Measure.restrict_apply measurableSet_Iic]
  have : Set.Iic (F t) ∩ Set.Icc 0 1 = Set.Icc 0 (F t) := by
    ext z
    have := hF.lt_one t
    simp only [Set.mem_inter_iff, Set.mem_Iic, Set.mem_Icc]
    constructor
    · rintro ⟨a, b, c⟩
      exact ⟨b, a⟩
    · rintro ⟨a, b⟩
      exact ⟨b, a, by linarith⟩
  rw [this, Real.volume_Icc, sub_zero]

example (q : ℝ → ℝ) (hq : ∀ x, q (bimodalCdfX x) = x) :
    gaussianReal 0 1 {x | q (normalCdf x) ≤ 0} = ENNReal.ofReal (bimodalCdfX 0) := bimodal_marginal niceCdf_x hq 0

theorem measurable_invertCdf (F : ℝ → ℝ) : Measurable fun u => (invertCdf F u).getD 0 := by
  refine Monotone.measurable fun u v huv => ?_
  obtain ⟨x, hx⟩ := invertMono_terminates_real F (-10) 10 1e-12 u (by norm_num)
  obtain ⟨y, hy⟩ := invertMono_terminates_real F (-10) 10 1e-12 v (by norm_num)
  have := invertMono_mono F (-10) 10 1e-12 u v x y (by norm_num) (by norm_num) huv hx hy
  unfold invertCdf
  rw [hx, hy]
  exact this

/-- **C54**: the task as it is, with the numerical inverse functions: its points follow some law `Q` whose mutual
information is at most the reported one, the mutual information of the binormal.  Equality fails for every correlation
other than zero (`bimodalTask_overstates`). -/
theorem bimodalTask_correct_partial [MeasurableSpace Key] (R : JaxRandom Key) (κ : Measure Key) [IsProbabilityMeasure κ]
    (hR : IdealRandom R κ) (c : ℝ) (h1 : -1 < c) (h2 : c < 1) :
    ∃ s, ∃ Q : Measure ((Fin 1 → ℝ) × (Fin 1 → ℝ)), bimodalTask R c = .ok s ∧ s.mi = -(1 / 2) * Real.log (1 - c ^ 2) ∧ WellShaped s 1 1 ∧ SeedsAreKeys R s ∧
      IsProbabilityMeasure Q ∧ HasLaw κ s Q ∧ mutualInfo Q ≤ ENNReal.ofReal s.mi := by
  obtain ⟨base, u, P, e1, e2, e3, hu, -, -⟩ := uniform_correct R κ hR c h1 h2
  have := hu.prob
  have hmx : Measurable fun (v : Fin 1 → ℝ) i => (invertCdf bimodalCdfX (v i)).getD 0 :=
    measurable_pi_lambda _ fun i => (measurable_invertCdf _).comp (measurable_pi_apply i)
  have hmy : Measurable fun (v : Fin 1 → ℝ) i => (invertCdf bimodalCdfY (v i)).getD 0 :=
    measurable_pi_lambda _ fun i => (measurable_invertCdf _).comp (measurable_pi_apply i)
  have htx := acts_map 1 fun u => (invertCdf bimodalCdfX u).getD 0
  have hty := acts_map 1 fun u => (invertCdf bimodalCdfY u).getD 0
  obtain ⟨s, hs, hw⟩ := transformed_wellShaped u _ _ 0 0 1 1 1 1 hu.shape le_rfl le_rfl (by simp) (by simp) htx.reshapes
    hty.reshapes
  obtain ⟨h3, h4⟩ := transformed_law R κ u s P hu _ _ 0 0 _ _ hmx hmy htx hty hs
  have hmi : s.mi = u.mi := by
    obtain ⟨_, _, _, _, _, _, _, _, rfl⟩ := transformed_inv hs
    rfl
  refine ⟨s, _, ?_, hmi.trans e3, hw, h4, Measure.isProbabilityMeasure_map (hmx.prodMap hmy).aemeasurable, h3, ?_⟩
  · unfold bimodalTask bimodalWith
    rw [e1]
    show (normalCdfTask base >>= fun u => _) = _
    rw [e2]
    exact hs
  · rw [hmi, ← hu.mi]
    exact mutualInfo_map_le P hmx hmy

example : ∃ s, ∃ Q : Measure ((Fin 1 → ℝ) × (Fin 1 → ℝ)), bimodalTask tree 0.75 = .ok s ∧ HasLaw treeLaw s Q ∧ mutualInfo Q ≤ ENNReal.ofReal s.mi := by
  obtain ⟨s, Q, h1, -, -, -, -, h2, h3⟩ := bimodalTask_correct_partial tree treeLaw tree_ideal 0.75 (by norm_num) (by norm_num)
  exact ⟨s, Q, h1, h2, h3⟩

end BMI.Search
