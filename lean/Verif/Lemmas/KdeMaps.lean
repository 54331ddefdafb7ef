import Verif.Lemmas.KdeLaws
import Mathlib.Analysis.SpecialFunctions.Integrability.Basic
import Mathlib.Analysis.SpecialFunctions.JapaneseBracket
import Mathlib.MeasureTheory.Integral.Pi

/-! Maps of laws with densities: functions of the components, and maps preserving volumes. -/

namespace BMI.Kde

open MeasureTheory ProbabilityTheory Filter Topology BMI.Kde.Spec

variable {d : ℕ}

theorem young {a b : ℝ} (ha : 0 < a) : a * b ≤ a * Real.log a + Real.exp b := by
  have h := Real.add_one_le_exp (b - Real.log a)
  rw [Real.exp_sub, Real.exp_log ha, le_div_iff₀ ha] at h
  nlinarith

/-- A function with a singularity at the origin. -/
noncomputable def spike (x : ℝ) : ℝ := (Set.Ioc 0 1).indicator (fun x => x ^ (-(1 / 2) : ℝ)) x

theorem spike_nonneg (x : ℝ) : 0 ≤ spike x :=
  Set.indicator_nonneg (fun x hx => Real.rpow_nonneg hx.1.le _) x

theorem spike_integrable : Integrable spike volume := by
  have h := (intervalIntegral.intervalIntegrable_rpow' (a := 0) (b := 1) (r := (-(1 / 2) : ℝ)) (by norm_num)).1
  exact h.integrable_indicator measurableSet_Ioc

theorem exp_le_spike (x : ℝ) : Real.exp (max 0 (-Real.log x) / 2) ≤ 1 + spike x + spike (-x) := by
  have n1 := spike_nonneg x
  have n2 := spike_nonneg (-x)
  rcases le_or_gt 0 (Real.log x) with h | h
  · rw [max_eq_left (by linarith), zero_div, Real.exp_zero]; linarith
  have hx0 : x ≠ 0 := fun h0 => by simp [h0] at h
  have hx := abs_pos.2 hx0
  have h1 : |x| < 1 := by
    rw [← Real.log_abs] at h
    exact (Real.log_neg_iff hx).1 h
  have e : Real.exp (max 0 (-Real.log x) / 2) = |x| ^ (-(1 / 2) : ℝ) := by
    rw [max_eq_right (by linarith), Real.rpow_def_of_pos hx, Real.log_abs]
    congr 1; ring
  rw [e]
  rcases lt_or_gt_of_ne hx0 with h0 | h0
  · have : spike (-x) = |x| ^ (-(1 / 2) : ℝ) := by
      rw [abs_of_neg h0] at h1 ⊢
      exact Set.indicator_of_mem (s := Set.Ioc 0 1) ⟨by linarith, h1.le⟩ _
    linarith
  · have : spike x = |x| ^ (-(1 / 2) : ℝ) := by
      rw [abs_of_pos h0] at h1 ⊢
      exact Set.indicator_of_mem (s := Set.Ioc 0 1) ⟨h0, h1.le⟩ _
    linarith

/-- A weight on the line. -/
noncomputable def lw (x : ℝ) : ℝ := (1 + ‖x‖) ^ (-2 : ℝ)

theorem lw_pos (x : ℝ) : 0 < lw x := by unfold lw; positivity

theorem lw_le_one (x : ℝ) : lw x ≤ 1 := by
  unfold lw
  exact Real.rpow_le_one_of_one_le_of_nonpos (by linarith [norm_nonneg x]) (by norm_num)

theorem lw_integrable : Integrable lw volume := integrable_one_add_norm (by simp)

theorem measurable_lw : Measurable lw := by unfold lw; fun_prop

theorem log_lw (x : ℝ) : Real.log (lw x) = -2 * Real.log (1 + |x|) := by
  unfold lw
  rw [Real.log_rpow (by positivity), Real.norm_eq_abs]

theorem lw_spike_integrable : Integrable (fun x => lw x * Real.exp (max 0 (-Real.log x) / 2)) volume := by
  have hi := (lw_integrable.add spike_integrable).add spike_integrable.comp_neg
  refine hi.mono' ?_ (.of_forall fun x => ?_)
  · exact (measurable_lw.mul (Real.measurable_exp.comp ((measurable_const.max (Real.measurable_log.neg)).div_const 2))).aestronglyMeasurable
  · have h1 := lw_pos x
    have h2 := lw_le_one x
    have h3 := exp_le_spike x
    have h4 := spike_nonneg x
    have h5 := spike_nonneg (-x)
    rw [Real.norm_eq_abs, abs_of_pos (by positivity)]
    simp only [Pi.add_apply]
    nlinarith

/-- The logarithms of the components of a vector with a regular law have means, also close to zero. -/
theorem log_component_integrable {Q : Measure (Fin d → ℝ)} [IsProbabilityMeasure Q] (h : Regular Q) (c : Fin d) :
    Integrable (fun u => Real.log (u c)) Q := by
  obtain ⟨f, mf, f0, hQ, hf⟩ := h.density
  have ml : Measurable fun u : Fin d → ℝ => Real.log (u c) := (measurable_pi_apply c).log
  have hlo : Integrable (fun u => max 0 (-Real.log (u c)) / 2) Q := by
    set b : (Fin d → ℝ) → ℝ := fun u => max 0 (-Real.log (u c)) / 2 with hb
    have mb : Measurable b := (measurable_const.max ml.neg).div_const 2
    set w : (Fin d → ℝ) → ℝ := fun u => ∏ i, lw (u i) with hw
    have w0 : ∀ u, 0 < w u := fun u => Finset.prod_pos fun i _ => lw_pos _
    have hwb : Integrable (fun u => w u * Real.exp (b u)) volume := by
      have := Integrable.fintype_prod (𝕜 := ℝ) (μ := fun _ : Fin d => (volume : Measure ℝ))
        (f := fun i x => lw x * if i = c then Real.exp (max 0 (-Real.log x) / 2) else 1) fun i => by
          by_cases hi : i = c
          · simpa [hi] using lw_spike_integrable
          · simpa [hi] using lw_integrable
      refine this.congr (.of_forall fun u => ?_)
      simp only [Finset.prod_mul_distrib, hw, hb]
      congr 1
      rw [Finset.prod_ite_eq' Finset.univ c fun i => Real.exp (max 0 (-Real.log (u i)) / 2), if_pos (Finset.mem_univ c)]
    have hg : Integrable (fun u => max 0 (Real.log (f u)) + ∑ i, 2 * Real.log (1 + |u i|)) Q :=
      hf.add (integrable_finset_sum _ fun i _ => (h.tail i).const_mul 2)
    have ht : ∀ᵐ u ∂(volume : Measure (Fin d → ℝ)), ENNReal.ofReal (f u) < ⊤ := .of_forall fun u => ENNReal.ofReal_lt_top
    rw [hQ, integrable_withDensity_iff_integrable_smul' mf.ennreal_ofReal ht] at hg ⊢
    refine (hg.add hwb).mono' (mf.ennreal_ofReal.ennreal_toReal.smul mb).aestronglyMeasurable (.of_forall fun u => ?_)
    have hbn : 0 ≤ b u := div_nonneg (le_max_left _ _) (by norm_num)
    rw [Real.norm_eq_abs, Pi.add_apply, smul_eq_mul, smul_eq_mul, ENNReal.toReal_ofReal (f0 u), abs_of_nonneg (mul_nonneg (f0 u) hbn)]
    have hs : 0 ≤ ∑ i, 2 * Real.log (1 + |u i|) := Finset.sum_nonneg fun i _ => by
      have := Real.log_nonneg (show 1 ≤ 1 + |u i| by linarith [abs_nonneg (u i)])
      positivity
    rcases (f0 u).eq_or_lt with h0 | h0
    · rw [← h0]
      have := w0 u
      simp only [zero_mul, zero_add]
      positivity
    · have hy := young (a := f u / w u) (b := b u) (div_pos h0 (w0 u))
      have e1 : Real.log (f u / w u) = Real.log (f u) + ∑ i, 2 * Real.log (1 + |u i|) := by
        rw [Real.log_div h0.ne' (w0 u).ne', hw, Real.log_prod fun i _ => (lw_pos _).ne']
        simp only [log_lw, neg_mul, Finset.sum_neg_distrib]
        ring
      have e2 := mul_le_mul_of_nonneg_left hy (w0 u).le
      rw [e1, show w u * (f u / w u * b u) = f u * b u by have := (w0 u).ne'; field_simp,
        show w u * (f u / w u * (Real.log (f u) + ∑ i, 2 * Real.log (1 + |u i|)) + Real.exp (b u))
          = f u * (Real.log (f u) + ∑ i, 2 * Real.log (1 + |u i|)) + w u * Real.exp (b u) by have := (w0 u).ne'; field_simp] at e2
      refine e2.trans (add_le_add_left (mul_le_mul_of_nonneg_left ?_ h0.le) _)
      linarith [le_max_right 0 (Real.log (f u))]
  refine ((hlo.const_mul 2).add (h.tail c)).mono' ml.aestronglyMeasurable (.of_forall fun u => ?_)
  have h3 : 0 ≤ Real.log (1 + |u c|) := Real.log_nonneg (by linarith [abs_nonneg (u c)])
  rw [Real.norm_eq_abs, Pi.add_apply, abs_le]
  constructor
  · linarith [le_max_right 0 (-Real.log (u c))]
  · rcases eq_or_ne (u c) 0 with h0 | h0
    · rw [h0] at h3 ⊢; simp
    · have : Real.log (u c) ≤ Real.log (1 + |u c|) := by
        rw [← Real.log_abs]
        exact Real.log_le_log (abs_pos.2 h0) (by linarith)
      linarith [le_max_left 0 (-Real.log (u c))]

/-- No component is zero. -/
def off (d : ℕ) : Set (Fin d → ℝ) := {u | ∀ c, u c ≠ 0}

theorem measurableSet_off : MeasurableSet (off d) := by
  have e : off d = ⋂ i, (fun u => u i) ⁻¹' {0}ᶜ := by ext u; simp [off]
  rw [e]
  exact MeasurableSet.iInter fun i => (measurable_pi_apply i) (measurableSet_singleton 0).compl

theorem volume_off : ∀ᵐ u ∂(volume : Measure (Fin d → ℝ)), u ∈ off d := by
  refine ae_all_iff.2 fun c => ?_
  rw [ae_iff]
  simp only [not_not]
  rw [volume_pi]
  exact Measure.pi_hyperplane (fun _ : Fin d => (volume : Measure ℝ)) c 0

theorem regular_off {Q : Measure (Fin d → ℝ)} (h : Regular Q) : ∀ᵐ u ∂Q, u ∈ off d := by
  obtain ⟨f, -, -, hQ, -⟩ := h.density
  have hac : Q ≪ volume := by rw [hQ]; exact withDensity_absolutelyContinuous _ _
  exact hac.ae_le volume_off

/-- Functions applied to the components, differentiable except at zero. -/
theorem componentwise_volume_off {h h' : ℝ → ℝ} (hm : Measurable h) (hd : ∀ x, x ≠ 0 → HasDerivAt h (h' x) x) (hi : Function.Injective h) :
    MeasurableSet ((fun (u : Fin d → ℝ) c => h (u c)) '' off d) ∧
    (volume.withDensity fun u : Fin d → ℝ => ENNReal.ofReal |∏ c, h' (u c)|).map (fun u c => h (u c))
      = volume.restrict ((fun (u : Fin d → ℝ) c => h (u c)) '' off d) := by
  have hinj : Function.Injective fun (u : Fin d → ℝ) c => h (u c) := fun u v huv => funext fun c => hi (congrFun huv c)
  have hmm : Measurable fun (u : Fin d → ℝ) c => h (u c) := measurable_pi_lambda _ fun c => hm.comp (measurable_pi_apply c)
  refine ⟨(hmm.measurableEmbedding hinj).measurableSet_image.2 measurableSet_off, ?_⟩
  have hf : ∀ u ∈ off d, HasFDerivAt (fun (u : Fin d → ℝ) c => h (u c))
      (ContinuousLinearMap.pi fun c => h' (u c) • ContinuousLinearMap.proj (R := ℝ) (φ := fun _ : Fin d => ℝ) c) u := fun u hu => by
    rw [hasFDerivAt_pi]
    intro c
    have := (hd (u c) (hu c)).comp_hasFDerivAt u (ContinuousLinearMap.proj (R := ℝ) (φ := fun _ : Fin d => ℝ) c).hasFDerivAt
    exact this
  have hdet : ∀ u : Fin d → ℝ, (ContinuousLinearMap.pi fun c => h' (u c) • ContinuousLinearMap.proj (R := ℝ) (φ := fun _ : Fin d => ℝ) c).det
      = ∏ c, h' (u c) := fun u => by
    rw [← Matrix.det_diagonal, ← LinearMap.det_toLin']
    unfold ContinuousLinearMap.det
    congr 1
    ext v c
    simp [Matrix.toLin'_apply, Matrix.mulVec_diagonal]
  have hm := map_withDensity_abs_det_fderiv_eq_addHaar (volume : Measure (Fin d → ℝ)) (s := off d) measurableSet_off.nullMeasurableSet
    (fun u hu => (hf u hu).hasFDerivWithinAt) hinj.injOn
  simp only [hdet] at hm
  rwa [Measure.restrict_eq_self_of_ae_mem volume_off] at hm

/-- Functions of the components whose derivatives have logarithms with means. -/
theorem regular_each {Q : Measure (Fin d → ℝ)} [IsProbabilityMeasure Q] (hQ : Regular Q) {h h' : ℝ → ℝ} (hm : Measurable h) (hm' : Measurable h')
    (hd : ∀ x, x ≠ 0 → HasDerivAt h (h' x) x) (h0 : ∀ x, x ≠ 0 → h' x ≠ 0) (hi : Function.Injective h)
    (hl : ∀ c, Integrable (fun u => Real.log (h' (u c))) Q) (ht : ∀ c, Integrable (fun u => Real.log (1 + |h (u c)|)) Q) :
    Regular (Q.map fun u c => h (u c)) := by
  obtain ⟨mS, hv⟩ := componentwise_volume_off (d := d) hm hd hi
  have mJ : Measurable fun u : Fin d → ℝ => |∏ c, h' (u c)| :=
    (Finset.measurable_prod _ fun c _ => hm'.comp (measurable_pi_apply c)).norm
  refine regular_map hQ (measurable_pi_lambda _ fun c => hm.comp (measurable_pi_apply c)) (fun u v huv => funext fun c => hi (congrFun huv c))
    mJ ?_ mS hv ?_ ht
  · filter_upwards [regular_off hQ] with u hu
    exact abs_pos.2 (Finset.prod_ne_zero_iff.2 fun c _ => h0 _ (hu c))
  · have hs : Integrable (fun u => ∑ c, |Real.log (h' (u c))|) Q := integrable_finset_sum _ fun c _ => (hl c).norm
    refine hs.mono' (measurable_const.max mJ.log.neg).aestronglyMeasurable ?_
    filter_upwards [regular_off hQ] with u hu
    rw [Real.norm_eq_abs, abs_of_nonneg (le_max_left _ _), Real.log_abs, Real.log_prod fun c _ => h0 _ (hu c), ← Finset.sum_neg_distrib]
    refine max_le (Finset.sum_nonneg fun c _ => abs_nonneg _) (Finset.sum_le_sum fun c _ => neg_le_abs _)

/-- Maps preserving volumes. -/
theorem regular_preserving {Q : Measure (Fin d → ℝ)} [IsProbabilityMeasure Q] (hQ : Regular Q) {e : (Fin d → ℝ) → Fin d → ℝ}
    (he : MeasurePreserving e volume volume) (hi : Function.Injective e) (ht : ∀ c, Integrable (fun u => Real.log (1 + |e u c|)) Q) :
    Regular (Q.map e) := by
  refine regular_map hQ he.measurable hi (measurable_const (a := (1 : ℝ))) (.of_forall fun _ => one_pos) MeasurableSet.univ ?_ (by simp) ht
  simp only [ENNReal.ofReal_one, Measure.restrict_univ]
  rw [withDensity_const, one_smul]
  exact he.map_eq

theorem one_add_sum_le (u : Fin d → ℝ) (s : Finset (Fin d)) : 1 + ∑ i ∈ s, |u i| ≤ ∏ i ∈ s, (1 + |u i|) := by
  induction s using Finset.induction_on with
  | empty => simp
  | insert a s ha ih =>
    rw [Finset.sum_insert ha, Finset.prod_insert ha]
    have h1 := abs_nonneg (u a)
    have h2 : 0 ≤ ∑ i ∈ s, |u i| := Finset.sum_nonneg fun i _ => abs_nonneg _
    nlinarith

/-- Maps which grow at most linearly. -/
theorem tail_linear {Q : Measure (Fin d → ℝ)} [IsProbabilityMeasure Q] (hQ : ∀ c, Integrable (fun u => Real.log (1 + |u c|)) Q)
    {g : (Fin d → ℝ) → ℝ} (hg : Measurable g) {B : ℝ} (hB : ∀ u, |g u| ≤ B * (1 + ∑ i, |u i|)) :
    Integrable (fun u => Real.log (1 + |g u|)) Q := by
  have hs : Integrable (fun u => Real.log (1 + |B|) + ∑ i, Real.log (1 + |u i|)) Q :=
    (integrable_const _).add (integrable_finset_sum _ fun i _ => hQ i)
  refine hs.mono' (hg.norm.const_add 1).log.aestronglyMeasurable (.of_forall fun u => ?_)
  rw [Real.norm_eq_abs, abs_of_nonneg (Real.log_nonneg (by linarith [abs_nonneg (g u)])), ← Real.log_prod fun i _ => by positivity,
    ← Real.log_mul (by positivity) (Finset.prod_ne_zero_iff.2 fun i _ => by positivity)]
  refine Real.log_le_log (by positivity) ?_
  have h1 : 1 + ∑ i, |u i| ≤ ∏ i, (1 + |u i|) := one_add_sum_le u Finset.univ
  have h2 : |g u| ≤ |B| * (1 + ∑ i, |u i|) :=
    (hB u).trans (mul_le_mul_of_nonneg_right (le_abs_self B) (by positivity))
  have h3 : 0 ≤ ∑ i, |u i| := Finset.sum_nonneg fun i _ => abs_nonneg _
  nlinarith [abs_nonneg B]

end BMI.Kde
