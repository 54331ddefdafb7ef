import Verif.Lemmas.KdeShape
import Mathlib.Analysis.SpecialFunctions.Pow.Asymptotics

/-! Entropies of kernel densities with shrinking bandwidths. -/

namespace BMI.Kde

open MeasureTheory ProbabilityTheory Filter Topology BMI.Batch BMI.Kde.Spec BMI.Mollify

variable {d : ℕ} {Q : Measure (Fin d → ℝ)} [IsProbabilityMeasure Q] {f : (Fin d → ℝ) → ℝ}

theorem Dense.ae_pos (D : Dense Q f) : ∀ᵐ u ∂Q, 0 < f u := by
  have hm := D.meas
  rw [D.law, ae_withDensity_iff (by fun_prop)]
  exact .of_forall fun u hu => by simpa using hu

theorem measurable_blurred (k : Kernel) (h : ℝ) :
    Measurable fun u => rowMean Q (pairKernel (shape k) h) u / (mass k d * h ^ d) :=
  (measurable_rowMean (measurable_pairKernel' k h)).div_const _

theorem log_le_weighted {x α : ℝ} (hx : 0 < x) (hα : 0 < α) : Real.log x ≤ α * x - Real.log α := by
  have h1 := Real.log_le_sub_one_of_pos (mul_pos hα hx)
  rw [Real.log_mul hα.ne' hx.ne'] at h1
  linarith

/-- Logarithms of two numbers in terms of a weight. -/
theorem abs_log_sub_log_le_wt {a b w α : ℝ} (ha : 0 < a) (hb : 0 < b) (hw : 0 < w) (hw1 : w ≤ 1) (hα : 0 < α) (hα1 : α ≤ 1) :
    |Real.log a - Real.log b| ≤ |a - b| / b + α * (w / a) + (max 0 (Real.log b) + -Real.log α + -Real.log w) := by
  have h1 : 0 ≤ -Real.log α := by linarith [Real.log_nonpos hα.le hα1]
  have h2 : 0 ≤ -Real.log w := by linarith [Real.log_nonpos hw.le hw1]
  have h3 : 0 < w / a := by positivity
  have h4 : 0 ≤ |a - b| / b := by positivity
  rcases le_total b a with h | h
  · rw [abs_of_nonneg (sub_nonneg.2 (Real.log_le_log hb h))]
    have h5 := Real.log_le_sub_one_of_pos (div_pos ha hb)
    rw [Real.log_div ha.ne' hb.ne', div_sub_one hb.ne'] at h5
    have h6 : (a - b) / b ≤ |a - b| / b := div_le_div_of_nonneg_right (le_abs_self _) hb.le
    have h7 : 0 < α * (w / a) := by positivity
    linarith [le_max_left 0 (Real.log b)]
  · rw [abs_of_nonpos (sub_nonpos.2 (Real.log_le_log ha h))]
    have h5 := log_le_weighted h3 hα
    rw [Real.log_div hw.ne' ha.ne'] at h5
    linarith [le_max_right 0 (Real.log b)]

theorem measurableSet_light (θ : ℝ) : MeasurableSet {u : Fin d → ℝ | wt u < θ} := measurableSet_lt measurable_wt measurable_const

/-- Points of small weight contribute little to the integral of a function. -/
theorem tail_small {g : (Fin d → ℝ) → ℝ} (hg : Integrable g Q) {ε : ℝ} (hε : 0 < ε) : ∃ θ₀ : ℝ, 0 < θ₀ ∧ ∀ θ : ℝ, θ ≤ θ₀ →
    ∫⁻ u in {u | wt u < θ}, ENNReal.ofReal (g u) ∂Q ≤ ENNReal.ofReal ε := by
  have hfin : ∫⁻ u, ENNReal.ofReal (g u) ∂Q ≠ ⊤ := by
    refine ne_top_of_le_ne_top hg.2.ne (lintegral_mono fun u => ?_)
    rw [Real.enorm_eq_ofReal_abs]
    exact ENNReal.ofReal_le_ofReal (le_abs_self _)
  have hm : Tendsto (Q ∘ fun n : ℕ => {u : Fin d → ℝ | wt u < 1 / ((n : ℝ) + 1)}) atTop (𝓝 0) := by
    have h1 := tendsto_measure_iInter_atTop (μ := Q) (s := fun n : ℕ => {u : Fin d → ℝ | wt u < 1 / ((n : ℝ) + 1)})
      (fun n => (measurableSet_light _).nullMeasurableSet) (fun m n hmn u hu => show wt u < 1 / ((m : ℝ) + 1) from lt_of_lt_of_le (show wt u < 1 / ((n : ℝ) + 1) from hu) (Nat.one_div_le_one_div hmn)) ⟨0, measure_ne_top _ _⟩
    have h2 : ⋂ n : ℕ, {u : Fin d → ℝ | wt u < 1 / ((n : ℝ) + 1)} = ∅ := by
      refine Set.eq_empty_of_forall_notMem fun u hu => ?_
      obtain ⟨n, hn⟩ := exists_nat_one_div_lt (wt_pos u)
      exact absurd (Set.mem_iInter.1 hu n) (not_lt.2 hn.le)
    rw [h2, measure_empty] at h1
    exact h1
  have ht := tendsto_setLIntegral_zero hfin hm
  obtain ⟨n, hn⟩ := (ht.eventually (ge_mem_nhds (ENNReal.ofReal_pos.2 hε))).exists
  refine ⟨1 / ((n : ℝ) + 1), by positivity, fun θ hθ => le_trans (lintegral_mono_set fun u hu => lt_of_lt_of_le hu hθ) hn⟩

/-- So do points where a function is large. -/
theorem peak_small (hf : Measurable f) {g : (Fin d → ℝ) → ℝ} (hg : Integrable g Q) {ε : ℝ} (hε : 0 < ε) : ∃ M : ℝ, 0 < M ∧
    ∫⁻ u in {u | M < f u}, ENNReal.ofReal (g u) ∂Q ≤ ENNReal.ofReal ε := by
  have hfin : ∫⁻ u, ENNReal.ofReal (g u) ∂Q ≠ ⊤ := by
    refine ne_top_of_le_ne_top hg.2.ne (lintegral_mono fun u => ?_)
    rw [Real.enorm_eq_ofReal_abs]
    exact ENNReal.ofReal_le_ofReal (le_abs_self _)
  have hm : Tendsto (Q ∘ fun n : ℕ => {u : Fin d → ℝ | (n : ℝ) + 1 < f u}) atTop (𝓝 0) := by
    have h1 := tendsto_measure_iInter_atTop (μ := Q) (s := fun n : ℕ => {u : Fin d → ℝ | (n : ℝ) + 1 < f u})
      (fun n => (measurableSet_lt measurable_const hf).nullMeasurableSet) (fun m n hmn u hu => by
        have : (m : ℝ) ≤ n := by exact_mod_cast hmn
        exact lt_of_le_of_lt (by linarith) (show (n : ℝ) + 1 < f u from hu)) ⟨0, measure_ne_top _ _⟩
    have h2 : ⋂ n : ℕ, {u : Fin d → ℝ | (n : ℝ) + 1 < f u} = ∅ := by
      refine Set.eq_empty_of_forall_notMem fun u hu => ?_
      obtain ⟨n, hn⟩ := exists_nat_gt (f u)
      have : (n : ℝ) + 1 < f u := Set.mem_iInter.1 hu n
      linarith
    rw [h2, measure_empty] at h1
    exact h1
  have ht := tendsto_setLIntegral_zero hfin hm
  obtain ⟨n, hn⟩ := (ht.eventually (ge_mem_nhds (ENNReal.ofReal_pos.2 hε))).exists
  exact ⟨(n : ℝ) + 1, by positivity, hn⟩

/-- The mean difference of the logarithms of the blurred density and the density. -/
theorem log_bias (k : Kernel) (D : Dense Q f) {h : ℝ} (hh : 0 < h) (h1 : h ≤ 1) {M η θ α : ℝ} (hM : 0 < M) (hη : 0 < η) (hθ : 0 < θ) (hα : 0 < α) (hα1 : α ≤ 1) :
    ∫⁻ u, ENNReal.ofReal |Real.log (rowMean Q (pairKernel (shape k) h) u / (mass k d * h ^ d)) - Real.log (f u)| ∂Q ≤
      ENNReal.ofReal (1 + M / η) * (∫⁻ u, ‖blur (bump k) f (mass k d) h u - f u‖ₑ)
        + ENNReal.ofReal ((η / θ + α) * (mass k d * recipConst k d))
        + ∫⁻ u in {u | wt u < θ} ∪ {u | M < f u}, ENNReal.ofReal (max 0 (Real.log (f u)) + -Real.log α + -Real.log (wt u)) ∂Q := by
  obtain ⟨r1, r2, r3⟩ := recip_kernel_le (Q := Q) k hh h1
  have hZ := mass_pos k d
  have hzh : 0 < mass k d * h ^ d := by positivity
  have hfm := D.meas
  set a : (Fin d → ℝ) → ℝ := fun u => rowMean Q (pairKernel (shape k) h) u / (mass k d * h ^ d) with ha
  have mam : Measurable a := measurable_blurred k h
  have eb : ∀ u, blur (bump k) f (mass k d) h u = a u := fun u => (rowMean_blur k D hh u).symm
  have hM' : 0 ≤ 1 + M / η := by positivity
  have mB : MeasurableSet ({u | wt u < θ} ∪ {u | M < f u}) := (measurableSet_light θ).union (measurableSet_lt measurable_const hfm)
  have mq : Measurable fun u => ENNReal.ofReal (|a u - f u| / f u) := (((mam.sub hfm).norm).div hfm).ennreal_ofReal
  have p1 : ∫⁻ u, ENNReal.ofReal (|a u - f u| / f u) ∂Q ≤ ∫⁻ u, ‖blur (bump k) f (mass k d) h u - f u‖ₑ := by
    conv_lhs => rw [D.law]
    rw [lintegral_withDensity_eq_lintegral_mul _ (by fun_prop) mq]
    refine lintegral_mono fun u => ?_
    rw [eb, Real.enorm_eq_ofReal_abs, Pi.mul_apply, ← ENNReal.ofReal_mul (D.nonneg u)]
    refine ENNReal.ofReal_le_ofReal ?_
    rcases (D.nonneg u).eq_or_lt with h0 | h0
    · rw [← h0]; simp
    · rw [mul_div_cancel₀ _ h0.ne']
  have ea : ∀ u, (η / θ + α) * (wt u / a u) = (η / θ + α) * (mass k d * h ^ d) * (wt u * (1 / rowMean Q (pairKernel (shape k) h) u)) := fun u => by
    rw [ha]
    simp only [div_div_eq_mul_div]
    ring
  have mwa : Measurable fun u => ENNReal.ofReal ((η / θ + α) * (wt u / a u)) := ((measurable_wt.div mam).const_mul _).ennreal_ofReal
  have p2 : ∫⁻ u, ENNReal.ofReal ((η / θ + α) * (wt u / a u)) ∂Q ≤ ENNReal.ofReal ((η / θ + α) * (mass k d * recipConst k d)) := by
    simp only [ea]
    rw [← ofReal_integral_eq_lintegral_ofReal (r2.const_mul _) (by
      filter_upwards [r1] with u hu
      show (0 : ℝ) ≤ (η / θ + α) * (mass k d * h ^ d) * (wt u * (1 / rowMean Q (pairKernel (shape k) h) u))
      have := wt_pos u
      positivity)]
    refine ENNReal.ofReal_le_ofReal ?_
    rw [integral_const_mul]
    refine (mul_le_mul_of_nonneg_left r3 (by positivity)).trans (le_of_eq ?_)
    field_simp
  rw [← lintegral_indicator mB]
  calc ∫⁻ u, ENNReal.ofReal |Real.log (a u) - Real.log (f u)| ∂Q
      ≤ ∫⁻ u, (ENNReal.ofReal (1 + M / η) * ENNReal.ofReal (|a u - f u| / f u) + ENNReal.ofReal ((η / θ + α) * (wt u / a u))
        + ({u | wt u < θ} ∪ {u | M < f u}).indicator (fun u => ENNReal.ofReal (max 0 (Real.log (f u)) + -Real.log α + -Real.log (wt u))) u) ∂Q := by
        refine lintegral_mono_ae ?_
        filter_upwards [r1, D.ae_pos] with u hu hf
        have hau : 0 < a u := div_pos hu hzh
        have hw := wt_pos u
        have hq : 0 ≤ |a u - f u| / f u := by positivity
        rw [← ENNReal.ofReal_mul hM', ← ENNReal.ofReal_add (by positivity) (by positivity)]
        by_cases hu : u ∈ {u | wt u < θ} ∪ {u | M < f u}
        · rw [Set.indicator_of_mem hu]
          refine (ENNReal.ofReal_le_ofReal ?_).trans ENNReal.ofReal_add_le
          refine (abs_log_sub_log_le_wt hau hf hw (wt_le_one u) hα hα1).trans ?_
          have h2 : 0 ≤ M / η * (|a u - f u| / f u) := by positivity
          have h3 : 0 ≤ η / θ * (wt u / a u) := by positivity
          linarith
        · rw [Set.indicator_of_notMem hu, add_zero]
          simp only [Set.mem_union, Set.mem_setOf_eq, not_or] at hu
          refine ENNReal.ofReal_le_ofReal ?_
          refine (abs_log_sub_log_le hau hf (not_lt.1 hu.2) hη).trans ?_
          have h2 : η / a u ≤ η / θ * (wt u / a u) := by
            rw [div_mul_div_comm, div_le_div_iff₀ hau (by positivity)]
            have := mul_le_mul_of_nonneg_left (not_lt.1 hu.1) (show 0 ≤ η * a u by positivity)
            linarith
          have h3 : 0 ≤ α * (wt u / a u) := by positivity
          linarith
    _ = ENNReal.ofReal (1 + M / η) * ∫⁻ u, ENNReal.ofReal (|a u - f u| / f u) ∂Q + ∫⁻ u, ENNReal.ofReal ((η / θ + α) * (wt u / a u)) ∂Q
        + ∫⁻ u, ({u | wt u < θ} ∪ {u | M < f u}).indicator (fun u => ENNReal.ofReal (max 0 (Real.log (f u)) + -Real.log α + -Real.log (wt u))) u ∂Q := by
        have m1 : Measurable fun u => ENNReal.ofReal (1 + M / η) * ENNReal.ofReal (|a u - f u| / f u) + ENNReal.ofReal ((η / θ + α) * (wt u / a u)) :=
          (mq.const_mul _).add mwa
        rw [lintegral_add_left m1, lintegral_add_left (mq.const_mul _), lintegral_const_mul _ mq]
    _ ≤ _ := add_le_add (add_le_add (mul_le_mul_right p1 _) p2) le_rfl

theorem blurred_small (k : Kernel) (D : Dense Q f) :
    Tendsto (fun h : ℝ => ∫⁻ u, ‖blur (bump k) f (mass k d) h u - f u‖ₑ) (𝓝 0) (𝓝 0) :=
  blur_small D.meas D.integrable (measurable_bump k) (fun w => by rw [abs_of_nonneg (bump_nonneg k w)]; exact (shape_bounds k _ (norm_nonneg _)).2)
    (bump_integrable k) rfl (mass_pos k d)

/-- The bias vanishes with the bandwidth. -/
theorem log_bias_small (k : Kernel) (D : Dense Q f) {ε : ℝ} (hε : 0 < ε) : ∃ h₀ : ℝ, 0 < h₀ ∧ h₀ ≤ 1 ∧ ∀ h : ℝ, 0 < h → h ≤ h₀ →
    ∫⁻ u, ENNReal.ofReal |Real.log (rowMean Q (pairKernel (shape k) h) u / (mass k d * h ^ d)) - Real.log (f u)| ∂Q ≤ ENNReal.ofReal ε := by
  have hZ := mass_pos k d
  have hK := recipConst_nonneg k d
  set L := mass k d * recipConst k d with hL
  have hL0 : 0 ≤ L := by positivity
  set α := min 1 (ε / (4 * (L + 1))) with hαd
  have hα : 0 < α := by positivity
  have hαL : α * L ≤ ε / 4 := by
    refine (mul_le_mul_of_nonneg_right (min_le_right _ _) hL0).trans ?_
    rw [div_mul_eq_mul_div, div_le_div_iff₀ (by positivity) (by norm_num)]
    nlinarith
  have hg : Integrable (fun u => max 0 (Real.log (f u)) + -Real.log α + -Real.log (wt u)) Q := (D.peak.add (integrable_const _)).add D.log_wt
  obtain ⟨θ, hθ, htail⟩ := tail_small (Q := Q) hg (show 0 < ε / 8 by positivity)
  obtain ⟨M, hM, hpeak⟩ := peak_small (Q := Q) D.meas hg (show 0 < ε / 8 by positivity)
  have hbad : ∫⁻ u in {u | wt u < θ} ∪ {u | M < f u}, ENNReal.ofReal (max 0 (Real.log (f u)) + -Real.log α + -Real.log (wt u)) ∂Q ≤ ENNReal.ofReal (ε / 4) := by
    refine (lintegral_union_le _ _ _).trans ((add_le_add (htail θ le_rfl) hpeak).trans (le_of_eq ?_))
    rw [← ENNReal.ofReal_add (by positivity) (by positivity)]
    congr 1
    ring
  set η := θ * (ε / (4 * (L + 1))) with hη
  have hη0 : 0 < η := by positivity
  have hηL : η / θ * L ≤ ε / 4 := by
    rw [hη, mul_div_cancel_left₀ _ hθ.ne', div_mul_eq_mul_div, div_le_div_iff₀ (by positivity) (by norm_num)]
    nlinarith
  have hM' : 0 < 1 + M / η := by positivity
  have ht := (blurred_small k D).eventually (ge_mem_nhds (show (0 : ENNReal) < ENNReal.ofReal (ε / (4 * (1 + M / η))) by
    rw [ENNReal.ofReal_pos]; positivity))
  obtain ⟨ρ, hρ, hb⟩ := Metric.eventually_nhds_iff.1 ht
  refine ⟨min (ρ / 2) 1, by positivity, min_le_right _ _, fun h hh hle => ?_⟩
  refine (log_bias k D hh (hle.trans (min_le_right _ _)) hM hη0 hθ hα (min_le_left _ _)).trans ?_
  have h1 := @hb h (by rw [Real.dist_eq, sub_zero, abs_of_pos hh]; linarith [hle.trans (min_le_left _ _)])
  refine (add_le_add (add_le_add (mul_le_mul_right h1 _) le_rfl) hbad).trans ?_
  rw [← ENNReal.ofReal_mul hM'.le, ← ENNReal.ofReal_add (by positivity) (by positivity), ← ENNReal.ofReal_add (by positivity) (by positivity)]
  refine ENNReal.ofReal_le_ofReal ?_
  rw [← hL]
  have : (1 + M / η) * (ε / (4 * (1 + M / η))) = ε / 4 := by field_simp
  rw [this]
  linarith

/-- The logarithm of the density is integrable. -/
theorem log_density_integrable (D : Dense Q f) : Integrable (fun u => Real.log (f u)) Q := by
  obtain ⟨h, hh, h1, hb⟩ := log_bias_small .tophat D (show (0 : ℝ) < 1 by norm_num)
  have hb := hb h hh le_rfl
  obtain ⟨r1, r2, r3⟩ := recip_kernel_le (Q := Q) .tophat hh h1
  have hzh : 0 < mass .tophat d * h ^ d := by have := mass_pos .tophat d; positivity
  have ml := (measurable_blurred (Q := Q) .tophat h).log
  have i1 : Integrable (fun u => Real.log (rowMean Q (pairKernel (shape .tophat) h) u / (mass .tophat d * h ^ d))) Q := by
    refine Integrable.mono' ((r2.add D.log_wt).add (integrable_const |Real.log (mass .tophat d * h ^ d)|)) ml.aestronglyMeasurable ?_
    filter_upwards [r1] with u hu
    rw [Real.log_div hu.ne' hzh.ne', Real.norm_eq_abs]
    refine (abs_sub _ _).trans (add_le_add ?_ le_rfl)
    have hle := rowMean_le_one' (P := Q) (measurable_pairKernel' .tophat h) (pairKernel_nonneg hh) (pairKernel_le hh) u
    have hw := wt_pos u
    rw [abs_of_nonpos (Real.log_nonpos hu.le hle)]
    have h2 := Real.log_le_sub_one_of_pos (show 0 < wt u * (1 / rowMean Q (pairKernel (shape .tophat) h) u) by positivity)
    rw [mul_one_div, Real.log_div hw.ne' hu.ne'] at h2
    simp only [Pi.add_apply]
    rw [mul_one_div]
    linarith
  have i2 : Integrable (fun u => Real.log (rowMean Q (pairKernel (shape .tophat) h) u / (mass .tophat d * h ^ d)) - Real.log (f u)) Q := by
    refine ⟨(ml.sub D.meas.log).aestronglyMeasurable, ?_⟩
    unfold HasFiniteIntegral
    simp only [Real.enorm_eq_ofReal_abs]
    exact lt_of_le_of_lt hb ENNReal.ofReal_lt_top
  refine (i1.sub i2).congr (.of_forall fun u => ?_)
  simp

/-- The logarithms of the rows are close to those of the blurred probabilities. -/
theorem rows_small (k : Kernel) (D : Dense Q f) {h : ℕ → ℝ} (hp : ∀ᶠ n in atTop, 0 < h n) (h0 : Tendsto h atTop (𝓝 0)) {δ : ℝ} (hδ : 0 < δ)
    (hl : Tendsto (fun n : ℕ => (1 + Real.log n) * (n : ℝ) ^ δ / (n * h n ^ d)) atTop (𝓝 0)) {ε : ℝ} (hε : 0 < ε) :
    ∀ᶠ n : ℕ in atTop, ∀ i : Fin n, ∫⁻ b, ENNReal.ofReal |Real.log ((∑ j, pairKernel (shape k) (h n) (b i, b j)) / n)
        - Real.log (rowMean Q (pairKernel (shape k) (h n)) (b i))| ∂(Measure.pi fun _ : Fin n => Q) ≤ ENNReal.ofReal ε := by
  have hγ := shape_half k
  set K := recipConst k d with hKd
  have hK : 0 ≤ K := recipConst_nonneg k d
  set α := min 1 (ε / (4 * (K + 1))) with hαd
  have hα : 0 < α := by positivity
  have hα1 : 0 ≤ -Real.log α := by linarith [Real.log_nonpos hα.le (min_le_left _ _)]
  have hαK : α * K ≤ ε / 4 := by
    refine (mul_le_mul_of_nonneg_right (min_le_right _ _) hK).trans ?_
    rw [div_mul_eq_mul_div, div_le_div_iff₀ (by positivity) (by norm_num)]
    nlinarith
  obtain ⟨θ, hθ, htail⟩ := tail_small (Q := Q) ((integrable_const (-Real.log α)).add (D.log_wt.const_mul (1 + 2 / δ))) (show 0 < ε / 4 by positivity)
  set T := 4 / ε + 4 + 1 with hT
  have hT0 : 0 < T := by positivity
  have e1 := hl.eventually (gt_mem_nhds (show (0 : ℝ) < ε / 4 / (T * (K + 1)) by positivity))
  have e1' := hl.eventually (gt_mem_nhds (show (0 : ℝ) < 1 by norm_num))
  have e2 := h0.eventually (gt_mem_nhds (show (0 : ℝ) < 1 by norm_num))
  have e3 := (((tendsto_rpow_neg_atTop hδ).comp tendsto_natCast_atTop_atTop).eventually (gt_mem_nhds hθ))
  filter_upwards [e1, e1', e2, e3, hp, eventually_gt_atTop 0] with n n1 n1' n2 n4 n3 hn i
  have hn' : (0 : ℝ) < n := by exact_mod_cast hn
  have hn1 : (1 : ℝ) ≤ n := by exact_mod_cast hn
  have hln : 0 ≤ Real.log n := Real.log_natCast_nonneg n
  set p := rowMean Q (pairKernel (shape k) (h n)) with hpd
  obtain ⟨r1, r2, r3⟩ := recip_kernel_le (Q := Q) k n3 n2.le
  have mp : Measurable p := measurable_rowMean (measurable_pairKernel' k (h n))
  have p0 : ∀ u, 0 ≤ p u := rowMean_nonneg' (measurable_pairKernel' k (h n)) (pairKernel_nonneg n3) (pairKernel_le n3)
  have p1 : ∀ u, p u ≤ 1 := rowMean_le_one' (measurable_pairKernel' k (h n)) (pairKernel_nonneg n3) (pairKernel_le n3)
  have hhd : 0 < h n ^ d := by positivity
  have hnd : 0 < (n : ℝ) ^ δ := by positivity
  have hnd1 : 1 ≤ (n : ℝ) ^ δ := Real.one_le_rpow hn1 hδ.le
  have hbig : 1 ≤ n * h n ^ d := by
    rw [div_lt_one (by positivity)] at n1'
    nlinarith
  set θn := (n : ℝ) ^ (-δ) with hθn
  have hθn0 : 0 < θn := by positivity
  have hθinv : θn * (n : ℝ) ^ δ = 1 := by rw [hθn, ← Real.rpow_add hn']; simp
  set S : Set (Fin d → ℝ) := {u | wt u < θn}ᶜ with hS
  have mS : MeasurableSet S := (measurableSet_light θn).compl
  have hSle : ∀ u, S.indicator (fun u => 1 / p u) u ≤ (n : ℝ) ^ δ * (wt u * (1 / p u)) := fun u => by
    have h1 : 0 ≤ 1 / p u := one_div_nonneg.2 (p0 u)
    by_cases hu : u ∈ S
    · rw [Set.indicator_of_mem hu, ← mul_assoc]
      refine le_mul_of_one_le_left h1 ?_
      have : θn ≤ wt u := not_lt.1 hu
      calc (1 : ℝ) = (n : ℝ) ^ δ * θn := by rw [mul_comm, hθinv]
        _ ≤ _ := mul_le_mul_of_nonneg_left this hnd.le
    · rw [Set.indicator_of_notMem hu]
      have := wt_pos u
      positivity
  have iS : Integrable (S.indicator fun u => 1 / p u) Q := by
    refine Integrable.mono' (r2.const_mul ((n : ℝ) ^ δ)) ((mp.const_div 1).indicator mS).aestronglyMeasurable (.of_forall fun u => ?_)
    rw [Real.norm_eq_abs, abs_of_nonneg (Set.indicator_nonneg (fun u _ => one_div_nonneg.2 (p0 u)) u)]
    exact hSle u
  have hD : ∫ u, S.indicator (fun u => 1 / p u) u ∂Q ≤ (n : ℝ) ^ δ * (K / h n ^ d) := by
    refine (integral_mono iS (r2.const_mul _) hSle).trans ?_
    rw [integral_const_mul]
    exact mul_le_mul_of_nonneg_left r3 hnd.le
  have hrow := row_log_shrink (P := Q) (measurable_pairKernel' k (h n)) (pairKernel_nonneg n3) (pairKernel_le n3)
    (pairKernel_self k (h n)) r1 mS iS hD i (show 0 < ε / 4 by positivity)
  have hrow' := hrow.trans (ENNReal.ofReal_le_ofReal (show _ ≤ ε / 2 by
    have h2 : (1 / (ε / 4) + 4 * Real.log n + 1) ≤ T * (1 + Real.log n) := by
      rw [hT]
      have : 0 < 4 / ε := by positivity
      rw [one_div_div]
      nlinarith
    have h3 : (n : ℝ) ^ δ * (K / h n ^ d) / n = (n : ℝ) ^ δ * K / (n * h n ^ d) := by field_simp
    rw [h3]
    have h4 : T * (1 + Real.log n) * ((n : ℝ) ^ δ * K / (n * h n ^ d)) = (1 + Real.log n) * (n : ℝ) ^ δ / (n * h n ^ d) * (T * K) := by ring
    have h5 : (1 + Real.log n) * (n : ℝ) ^ δ / (n * h n ^ d) * (T * K) ≤ ε / 4 := by
      rw [lt_div_iff₀ (by positivity)] at n1
      refine le_trans ?_ n1.le
      refine mul_le_mul_of_nonneg_left ?_ (by positivity)
      exact mul_le_mul_of_nonneg_left (by linarith) hT0.le
    have h6 := mul_le_mul_of_nonneg_right h2 (show 0 ≤ (n : ℝ) ^ δ * K / (n * h n ^ d) by positivity)
    linarith))
  set G : (Fin d → ℝ) → ENNReal := fun u => ENNReal.ofReal (α * h n ^ d * (wt u * (1 / p u)))
    + {u | wt u < θn}.indicator (fun u => ENNReal.ofReal (-Real.log α + (1 + 2 / δ) * -Real.log (wt u))) u with hG
  have mG1 : Measurable fun u => ENNReal.ofReal (α * h n ^ d * (wt u * (1 / p u))) :=
    ((measurable_wt.mul (mp.const_div 1)).const_mul _).ennreal_ofReal
  have mG : Measurable G := mG1.add (Measurable.indicator (((measurable_wt.log.neg).const_mul _).const_add _).ennreal_ofReal (measurableSet_light θn))
  have hGint : ∫⁻ u, G u ∂Q ≤ ENNReal.ofReal (ε / 2) := by
    rw [hG, lintegral_add_left mG1, lintegral_indicator (measurableSet_light θn)]
    have h1 : ∫⁻ u, ENNReal.ofReal (α * h n ^ d * (wt u * (1 / p u))) ∂Q ≤ ENNReal.ofReal (ε / 4) := by
      rw [← ofReal_integral_eq_lintegral_ofReal (r2.const_mul _) (.of_forall fun u => by
        have := wt_pos u
        have := p0 u
        show (0 : ℝ) ≤ α * h n ^ d * (wt u * (1 / p u))
        positivity)]
      refine ENNReal.ofReal_le_ofReal ?_
      rw [integral_const_mul]
      refine (mul_le_mul_of_nonneg_left r3 (by positivity)).trans (le_trans (le_of_eq ?_) hαK)
      rw [← hKd]
      field_simp
    refine (add_le_add h1 (htail θn n4.le)).trans ?_
    rw [← ENNReal.ofReal_add (by positivity) (by positivity)]
    exact ENNReal.ofReal_le_ofReal (by linarith)
  have hpi : ∀ᵐ b ∂(Measure.pi fun _ : Fin n => Q), 0 < p (b i) := by
    have hq : Measure.QuasiMeasurePreserving (fun b : Fin n → Fin d → ℝ => b i) (Measure.pi fun _ : Fin n => Q) Q :=
      ⟨measurable_pi_apply i, by rw [Batch.map_one]⟩
    exact hq.ae r1
  have hpt : ∀ᵐ b ∂(Measure.pi fun _ : Fin n => Q), ENNReal.ofReal |Real.log ((∑ j, pairKernel (shape k) (h n) (b i, b j)) / n) - Real.log (p (b i))| ≤
      ENNReal.ofReal (S.indicator 1 (b i) * |Real.log ((∑ j, pairKernel (shape k) (h n) (b i, b j)) / n) - Real.log (p (b i))|) + G (b i) := by
    filter_upwards [hpi] with b hb
    by_cases hu : b i ∈ S
    · rw [Set.indicator_of_mem hu, Pi.one_apply, one_mul]
      exact le_self_add
    · have hlt : wt (b i) < θn := not_not.1 hu
      rw [Set.indicator_of_notMem hu, zero_mul, ENNReal.ofReal_zero, zero_add, hG]
      simp only
      rw [Set.indicator_of_mem (by exact hlt)]
      refine (ENNReal.ofReal_le_ofReal ?_).trans ENNReal.ofReal_add_le
      have hw := wt_pos (b i)
      set q := (∑ j, pairKernel (shape k) (h n) (b i, b j)) / n with hq
      have q1 : 1 / n ≤ q := by
        refine div_le_div_of_nonneg_right ?_ hn'.le
        rw [← pairKernel_self k (h n) (b i)]
        exact Finset.single_le_sum (f := fun j => pairKernel (shape k) (h n) (b i, b j)) (fun j _ => pairKernel_nonneg n3 _) (Finset.mem_univ i)
      have q2 : q ≤ 1 := by
        rw [hq, div_le_one hn']
        refine (Finset.sum_le_sum fun j _ => pairKernel_le n3 (b i, b j)).trans (by simp)
      have q0 : 0 < q := lt_of_lt_of_le (by positivity) q1
      have l1 : -Real.log n ≤ Real.log q := by
        have := Real.log_le_log (by positivity) q1
        rwa [one_div, Real.log_inv] at this
      have l2 := Real.log_nonpos q0.le q2
      have l3 := Real.log_nonpos hb.le (p1 (b i))
      have l4 : |Real.log q - Real.log (p (b i))| ≤ Real.log n - Real.log (p (b i)) := abs_le.2 ⟨by linarith, by linarith⟩
      have l5 := log_le_weighted (show 0 < h n ^ d * (wt (b i) * (1 / p (b i))) by positivity) hα
      rw [Real.log_mul hhd.ne' (by positivity), mul_one_div, Real.log_div hw.ne' hb.ne'] at l5
      have l6 := Real.log_nonneg hbig
      rw [Real.log_mul hn'.ne' hhd.ne'] at l6
      have l7 := Real.log_lt_log hw hlt
      rw [hθn, Real.log_rpow hn'] at l7
      have l8 : 2 * Real.log n ≤ 2 / δ * -Real.log (wt (b i)) := by
        rw [div_mul_eq_mul_div, le_div_iff₀ hδ]
        nlinarith
      rw [mul_one_div]
      linarith
  refine (lintegral_mono_ae hpt).trans ?_
  rw [lintegral_add_right _ (show Measurable fun b : Fin n → Fin d → ℝ => G (b i) from mG.comp (measurable_pi_apply i)), lintegral_one (P := Q) mG i]
  refine (add_le_add hrow' hGint).trans (le_of_eq ?_)
  rw [← ENNReal.ofReal_add (by positivity) (by positivity)]
  congr 1
  ring

/-- Kernel densities with bandwidths that shrink, but slowly enough: the entropy of the sample tends to the entropy of the law. -/
theorem entropy_shrink (k : Kernel) (D : Dense Q f) {h : ℕ → ℝ} (hp : ∀ᶠ n in atTop, 0 < h n) (h0 : Tendsto h atTop (𝓝 0)) {δ : ℝ} (hδ : 0 < δ)
    (hl : Tendsto (fun n : ℕ => (1 + Real.log n) * (n : ℝ) ^ δ / (n * h n ^ d)) atTop (𝓝 0)) :
    Batch.Small Q fun n b => Spec.entropy (shape k) (mass k d) (h n) b - -∫ u, Real.log (f u) ∂Q := by
  have hZ := mass_pos k d
  have hli := log_density_integrable D
  have mf := D.meas.log
  refine small_of_approx fun ε hε => ⟨fun n b => -((∑ i, Real.log (f (b i))) / n - ∫ u, Real.log (f u) ∂Q), ?_, fun n => ?_, ?_⟩
  · refine (average_small (P := Q) mf hli).mono (.of_forall fun n b => by rw [abs_neg])
  · exact (((Finset.measurable_sum _ fun i _ => mf.comp (measurable_pi_apply i)).div_const _).sub_const _).neg
  · obtain ⟨h₀, hh0, hh1, hbias⟩ := log_bias_small k D (show 0 < ε / 2 by positivity)
    have e2 := h0.eventually (gt_mem_nhds hh0)
    filter_upwards [rows_small k D hp h0 hδ hl (show 0 < ε / 2 by positivity), e2, hp, eventually_gt_atTop 0] with n hrow' n2 n3 hn
    have hn' : (0 : ℝ) < n := by exact_mod_cast hn
    set p := rowMean Q (pairKernel (shape k) (h n)) with hpd
    obtain ⟨r1, -, -⟩ := recip_kernel_le (Q := Q) k n3 (n2.le.trans hh1)
    have hzh : 0 < mass k d * h n ^ d := by positivity
    have mp : Measurable p := measurable_rowMean (measurable_pairKernel' k (h n))
    have hb2 : ∀ i : Fin n, ∫⁻ b, ENNReal.ofReal |Real.log (p (b i) / (mass k d * h n ^ d)) - Real.log (f (b i))|
        ∂(Measure.pi fun _ : Fin n => Q) ≤ ENNReal.ofReal (ε / 2) := by
      intro i
      have := lintegral_one (P := Q) (measurable_ofReal_abs (((mp.div_const (mass k d * h n ^ d)).log).sub mf)) i
      exact this.le.trans (hbias (h n) n3 n2.le)
    have m1 : ∀ i : Fin n, Measurable fun b : Fin n → Fin d → ℝ =>
        Real.log ((∑ j, pairKernel (shape k) (h n) (b i, b j)) / n) - Real.log (p (b i)) := fun i =>
      (measurable_row (measurable_pairKernel' k (h n)) i).log.sub (mp.log.comp (measurable_pi_apply i))
    have m2 : ∀ i : Fin n, Measurable fun b : Fin n → Fin d → ℝ =>
        Real.log (p (b i) / (mass k d * h n ^ d)) - Real.log (f (b i)) := fun i =>
      (((mp.div_const (mass k d * h n ^ d)).log).sub mf).comp (measurable_pi_apply i)
    have a1 := lintegral_average_le (μ := Measure.pi fun _ : Fin n => Q) (Finset.univ : Finset (Fin n)) (fun i _ => m1 i) hn' (fun i _ => hrow' i) (by simp)
    have a2 := lintegral_average_le (μ := Measure.pi fun _ : Fin n => Q) (Finset.univ : Finset (Fin n)) (fun i _ => m2 i) hn' (fun i _ => hb2 i) (by simp)
    have hpos : ∀ᵐ b ∂(Measure.pi fun _ : Fin n => Q), ∀ i : Fin n, 0 < p (b i) := by
      rw [ae_all_iff]
      intro i
      have hq : Measure.QuasiMeasurePreserving (fun b : Fin n → Fin d → ℝ => b i) (Measure.pi fun _ : Fin n => Q) Q :=
        ⟨measurable_pi_apply i, by rw [Batch.map_one]⟩
      exact hq.ae r1
    have hkey : ∀ᵐ b ∂(Measure.pi fun _ : Fin n => Q),
        ENNReal.ofReal |Spec.entropy (shape k) (mass k d) (h n) b - -∫ u, Real.log (f u) ∂Q - -((∑ i, Real.log (f (b i))) / n - ∫ u, Real.log (f u) ∂Q)| ≤
        ENNReal.ofReal |(∑ i, (Real.log ((∑ j, pairKernel (shape k) (h n) (b i, b j)) / n) - Real.log (p (b i)))) / n|
          + ENNReal.ofReal |(∑ i, (Real.log (p (b i) / (mass k d * h n ^ d)) - Real.log (f (b i)))) / n| := by
      filter_upwards [hpos] with b hb
      rw [← ENNReal.ofReal_add (abs_nonneg _) (abs_nonneg _)]
      refine ENNReal.ofReal_le_ofReal ?_
      refine le_trans (le_of_eq ?_) (abs_add_le _ _)
      rw [entropy_rows k hZ n3 hn b, ← abs_neg]
      congr 1
      have : ∀ i, Real.log (p (b i) / (mass k d * h n ^ d)) = Real.log (p (b i)) - Real.log (mass k d * h n ^ d) := fun i =>
        Real.log_div (hb i).ne' hzh.ne'
      simp only [this, Finset.sum_sub_distrib, Finset.sum_const, Finset.card_univ, Fintype.card_fin, nsmul_eq_mul]
      field_simp
      ring
    refine (lintegral_mono_ae hkey).trans ?_
    rw [lintegral_add_left (measurable_ofReal_abs ((Finset.measurable_sum _ fun i _ => m1 i).div_const _))]
    refine (add_le_add a1 a2).trans (le_of_eq ?_)
    rw [← ENNReal.ofReal_add (by positivity) (by positivity)]
    congr 1
    ring

theorem entropy_mass (k : Kernel) {z z' h : ℝ} (hz : 0 < z) (hz' : 0 < z') (hh : 0 < h) {n : ℕ} (hn : 0 < n) (b : Fin n → Fin d → ℝ) :
    Spec.entropy (shape k) z' h b = Spec.entropy (shape k) z h b + (Real.log z' - Real.log z) := by
  rw [entropy_rows k hz hh hn, entropy_rows k hz' hh hn, Real.log_mul hz.ne' (by positivity), Real.log_mul hz'.ne' (by positivity)]
  ring

end BMI.Kde
