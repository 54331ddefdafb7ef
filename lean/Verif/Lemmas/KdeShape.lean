import Verif.Lemmas.KdeShrink
import Mathlib.MeasureTheory.Integral.Pi
import Verif.Lemmas.KdeMollify
import Verif.Spec.KdeRule
import Verif.Props.KdeLimit
import Mathlib.Analysis.SpecialFunctions.JapaneseBracket
import Mathlib.MeasureTheory.Function.Floor
import Mathlib.MeasureTheory.Integral.Bochner.ContinuousLinearMap

/-! The six kernels: monotone, integrable, not too small close to their centre. -/

namespace BMI.Kde

open MeasureTheory ProbabilityTheory Filter Topology BMI.Batch BMI.Kde.Spec BMI.Mollify

variable {d : ℕ}

theorem measurable_shape (k : Kernel) : Measurable (shape k) := by
  cases k
  · show Measurable fun t => Real.exp (-(t ^ 2) / 2); fun_prop
  · show Measurable fun t => Set.indicator (Set.Iio 1) 1 t
    exact measurable_const.indicator measurableSet_Iio
  · show Measurable fun t : ℝ => max 0 (1 - t ^ 2); fun_prop
  · show Measurable fun t => Real.exp (-t); fun_prop
  · show Measurable fun t : ℝ => max 0 (1 - t); fun_prop
  · show Measurable fun t => Set.indicator (Set.Iio 1) (fun t => Real.cos (Real.pi * t / 2)) t
    exact Measurable.indicator (by fun_prop) measurableSet_Iio

theorem shape_mono (k : Kernel) {s t : ℝ} (hs : 0 ≤ s) (hst : s ≤ t) : shape k t ≤ shape k s := by
  cases k
  · refine Real.exp_le_exp.2 ?_
    have := pow_le_pow_left₀ hs hst 2
    linarith
  · simp only [shape, Set.indicator_apply, Set.mem_Iio, Pi.one_apply]
    split_ifs with h1 h2 <;> first | linarith | norm_num
  · have := pow_le_pow_left₀ hs hst 2
    exact max_le_max le_rfl (by linarith)
  · exact Real.exp_le_exp.2 (by linarith)
  · exact max_le_max le_rfl (by linarith)
  · by_cases h1 : t < 1
    · have h2 : s < 1 := lt_of_le_of_lt hst h1
      simp only [shape, Set.indicator_apply, Set.mem_Iio, if_pos h1, if_pos h2]
      exact Real.cos_le_cos_of_nonneg_of_le_pi (by positivity) (by nlinarith [Real.pi_pos]) (by nlinarith [Real.pi_pos])
    · have : shape Kernel.cosine t = 0 := by simp [shape, Set.indicator_apply, h1]
      rw [this]
      exact (shape_bounds _ s hs).1

theorem shape_half (k : Kernel) : 0 < shape k (1 / 2) := by
  cases k
  · exact Real.exp_pos _
  · norm_num [shape, Set.indicator_apply]
  · norm_num [shape]
  · exact Real.exp_pos _
  · norm_num [shape]
  · have : (1 / 2 : ℝ) < 1 := by norm_num
    simp only [shape, Set.indicator_apply, Set.mem_Iio, if_pos this]
    exact Real.cos_pos_of_mem_Ioo ⟨by linarith [Real.pi_pos], by linarith [Real.pi_pos]⟩

theorem shape_le_exp (k : Kernel) {t : ℝ} (ht : 0 ≤ t) : shape k t ≤ Real.exp (1 - t) := by
  have h1 := (shape_bounds k t ht).2
  rcases le_or_gt t 1 with h | h
  · exact h1.trans (Real.one_le_exp (by linarith))
  · have hp := Real.exp_pos (1 - t)
    cases k
    · exact Real.exp_le_exp.2 (by nlinarith [sq_nonneg (t - 1)])
    · have : shape Kernel.tophat t = 0 := by simp [shape, Set.indicator_apply, h.le]
      rw [this]; exact hp.le
    · have : shape Kernel.epanechnikov t = 0 := by simp only [shape]; rw [max_eq_left]; nlinarith
      rw [this]; exact hp.le
    · exact Real.exp_le_exp.2 (by linarith)
    · have : shape Kernel.linear t = 0 := by simp only [shape]; rw [max_eq_left]; linarith
      rw [this]; exact hp.le
    · have : shape Kernel.cosine t = 0 := by simp [shape, Set.indicator_apply, h.le]
      rw [this]; exact hp.le

/-- The kernel around the origin. -/
noncomputable def bump (k : Kernel) (w : Fin d → ℝ) : ℝ := shape k ‖(WithLp.toLp 2 w : EuclideanSpace ℝ (Fin d))‖

theorem measurable_bump (k : Kernel) : Measurable (bump (d := d) k) := by
  have : Continuous fun w : Fin d → ℝ => ‖(WithLp.toLp 2 w : EuclideanSpace ℝ (Fin d))‖ := by fun_prop
  exact (measurable_shape k).comp this.measurable

theorem bump_nonneg (k : Kernel) (w : Fin d → ℝ) : 0 ≤ bump k w := (shape_bounds k _ (norm_nonneg _)).1

theorem sup_le_norm (w : Fin d → ℝ) : ‖w‖ ≤ ‖(WithLp.toLp 2 w : EuclideanSpace ℝ (Fin d))‖ := by
  rw [pi_norm_le_iff_of_nonneg (norm_nonneg _)]
  intro i
  exact PiLp.norm_apply_le (WithLp.toLp 2 w : EuclideanSpace ℝ (Fin d)) i

theorem bump_integrable (k : Kernel) : Integrable (bump (d := d) k) volume := by
  have hi : Integrable (fun w : Fin d → ℝ => (1 + ‖w‖) ^ (-((d : ℝ) + 1))) volume :=
    integrable_one_add_norm (by simp)
  refine (hi.const_mul (Real.exp 2 * (d + 1).factorial)).mono' (measurable_bump k).aestronglyMeasurable (.of_forall fun w => ?_)
  rw [Real.norm_eq_abs, abs_of_nonneg (bump_nonneg k w)]
  have h0 := norm_nonneg w
  refine (shape_mono k h0 (sup_le_norm w)).trans ((shape_le_exp k h0).trans ?_)
  have h1 := Real.pow_div_factorial_le_exp (x := 1 + ‖w‖) (by positivity) (d + 1)
  have hp : 0 < (1 + ‖w‖) ^ (d + 1) := by positivity
  have hf : (0 : ℝ) < (d + 1).factorial := by exact_mod_cast Nat.factorial_pos _
  have e : (1 + ‖w‖) ^ (-((d : ℝ) + 1)) = 1 / (1 + ‖w‖) ^ (d + 1) := by
    rw [Real.rpow_neg (by positivity), one_div]
    congr 1
    exact_mod_cast Real.rpow_natCast (1 + ‖w‖) (d + 1)
  rw [e, show 1 - ‖w‖ = 2 - (1 + ‖w‖) by ring, Real.exp_sub, mul_assoc]
  rw [div_eq_mul_one_div]
  refine mul_le_mul_of_nonneg_left ?_ (Real.exp_pos _).le
  rw [mul_one_div, div_le_div_iff₀ (Real.exp_pos _) hp, one_mul]
  rwa [div_le_iff₀ hf, mul_comm] at h1

theorem mass_eq (k : Kernel) (d : ℕ) : mass k d = ∫ w : Fin d → ℝ, bump k w := rfl

theorem mass_pos (k : Kernel) (d : ℕ) : 0 < mass k d := by
  rw [mass_eq, integral_pos_iff_support_of_nonneg (bump_nonneg k) (bump_integrable k)]
  have ho : IsOpen {w : Fin d → ℝ | ‖(WithLp.toLp 2 w : EuclideanSpace ℝ (Fin d))‖ < 1 / 2} := by
    have : Continuous fun w : Fin d → ℝ => ‖(WithLp.toLp 2 w : EuclideanSpace ℝ (Fin d))‖ := by fun_prop
    exact isOpen_lt this continuous_const
  refine lt_of_lt_of_le (ho.measure_pos volume ⟨0, by simp⟩) (measure_mono fun w hw => ?_)
  exact ((shape_half k).trans_le (shape_mono k (norm_nonneg _) (le_of_lt hw))).ne'

theorem measurable_pairKernel' (k : Kernel) (h : ℝ) : Measurable (pairKernel (d := d) (shape k) h) :=
  (measurable_shape k).comp (measurable_pairDist.div_const h)

theorem pairKernel_nonneg {k : Kernel} {h : ℝ} (hh : 0 < h) (p : (Fin d → ℝ) × (Fin d → ℝ)) : 0 ≤ pairKernel (shape k) h p :=
  (shape_bounds k _ (div_nonneg dist_nonneg hh.le)).1

theorem pairKernel_self (k : Kernel) (h : ℝ) (u : Fin d → ℝ) : pairKernel (shape k) h (u, u) = 1 := by simp [pairKernel, shape_zero]

theorem measurable_entropy' (k : Kernel) (z h : ℝ) (n : ℕ) :
    Measurable fun b : Fin n → Fin d → ℝ => Spec.entropy (shape k) z h b := by
  unfold Spec.entropy Spec.mean
  simp only [pdf_eq]
  exact ((Finset.measurable_sum _ fun i _ => ((measurable_row (measurable_pairKernel' k h) i).div_const _).log).div_const _).neg

theorem row_pos (k : Kernel) {h : ℝ} (hh : 0 < h) {n : ℕ} (b : Fin n → Fin d → ℝ) (i : Fin n) : 0 < ∑ j, pairKernel (shape k) h (b i, b j) :=
  Finset.sum_pos' (fun j _ => pairKernel_nonneg hh _) ⟨i, Finset.mem_univ _, by rw [pairKernel_self]; norm_num⟩

/-- If all distances in units of the bandwidth are smaller, so is the entropy. -/
theorem entropy_mono (k : Kernel) {n : ℕ} {z h z' h' : ℝ} (hh : 0 < h) (hh' : 0 < h') (hz : 0 < z * h ^ d)
    (he : z * h ^ d = z' * h' ^ d) (w v : Fin n → Fin d → ℝ)
    (hd : ∀ i j, dist (WithLp.toLp 2 (w i) : EuclideanSpace ℝ (Fin d)) (WithLp.toLp 2 (w j)) / h
      ≤ dist (WithLp.toLp 2 (v i) : EuclideanSpace ℝ (Fin d)) (WithLp.toLp 2 (v j)) / h') :
    Spec.entropy (shape k) z h w ≤ Spec.entropy (shape k) z' h' v := by
  unfold Spec.entropy Spec.mean
  rw [neg_le_neg_iff]
  refine div_le_div_of_nonneg_right (Finset.sum_le_sum fun i _ => ?_) (Nat.cast_nonneg n)
  have hn : (0 : ℝ) < n := by exact_mod_cast i.pos
  rw [pdf_eq, pdf_eq, ← he]
  have hs := row_pos k hh' v i
  refine Real.log_le_log (by positivity) (div_le_div_of_nonneg_right (div_le_div_of_nonneg_right (Finset.sum_le_sum fun j _ => ?_) hn.le) hz.le)
  exact shape_mono k (div_nonneg dist_nonneg hh.le) (hd i j)

theorem entropy_rows (k : Kernel) {z h : ℝ} (hz : 0 < z) (hh : 0 < h) {n : ℕ} (hn : 0 < n) (b : Fin n → Fin d → ℝ) :
    Spec.entropy (shape k) z h b = Real.log (z * h ^ d) - (∑ i, Real.log ((∑ j, pairKernel (shape k) h (b i, b j)) / n)) / n := by
  have hn' : (0 : ℝ) < n := by exact_mod_cast hn
  have hzh : 0 < z * h ^ d := by positivity
  unfold Spec.entropy Spec.mean
  have : ∀ i, Real.log (Spec.pdf (shape k) z h b (b i)) = Real.log ((∑ j, pairKernel (shape k) h (b i, b j)) / n) - Real.log (z * h ^ d) := by
    intro i
    have hs := row_pos k hh b i
    rw [pdf_eq, Real.log_div (by positivity) hzh.ne']
  simp only [this]
  rw [Finset.sum_sub_distrib, Finset.sum_const, Finset.card_univ, Fintype.card_fin, nsmul_eq_mul]
  field_simp
  ring

/-- A weight which decays like the square of every component. -/
noncomputable def wt (u : Fin d → ℝ) : ℝ := ∏ c, ((1 + |u c|) ^ 2)⁻¹

theorem wt_pos (u : Fin d → ℝ) : 0 < wt u := Finset.prod_pos fun c _ => by positivity

theorem wt_le_one (u : Fin d → ℝ) : wt u ≤ 1 := Finset.prod_le_one (fun c _ => by positivity) fun c _ =>
  inv_le_one_of_one_le₀ (one_le_pow₀ (by linarith [abs_nonneg (u c)]))

theorem measurable_wt : Measurable (wt : (Fin d → ℝ) → ℝ) :=
  Finset.measurable_prod _ fun c _ => (((measurable_pi_apply c).norm.const_add 1).pow_const 2).inv

theorem wt_integrable : Integrable (wt : (Fin d → ℝ) → ℝ) volume := by
  have h1 : Integrable (fun x : ℝ => ((1 + |x|) ^ 2)⁻¹) volume := by
    have := integrable_one_add_norm (E := ℝ) (μ := volume) (r := 2) (by simp)
    refine this.congr (.of_forall fun x => ?_)
    simp only [Real.norm_eq_abs]
    rw [Real.rpow_neg (by positivity)]
    norm_cast
  exact Integrable.fintype_prod (f := fun _ : Fin d => fun x : ℝ => ((1 + |x|) ^ 2)⁻¹) fun _ => h1

theorem wt_near {u v : Fin d → ℝ} (h : ∀ c, |u c - v c| ≤ 1) : wt u ≤ 4 ^ d * wt v := by
  unfold wt
  have : (4 : ℝ) ^ d = ∏ _c : Fin d, (4 : ℝ) := by simp
  rw [this, ← Finset.prod_mul_distrib]
  refine Finset.prod_le_prod (fun c _ => by positivity) fun c _ => ?_
  rw [← div_eq_mul_inv, inv_le_comm₀ (by positivity) (by positivity), inv_div, div_le_iff₀ (by norm_num)]
  have h1 : 1 + |v c| ≤ 2 * (1 + |u c|) := by
    have := abs_sub_abs_le_abs_sub (v c) (u c)
    rw [abs_sub_comm] at this
    have := h c
    linarith [abs_nonneg (u c)]
  calc (1 + |v c|) ^ 2 ≤ (2 * (1 + |u c|)) ^ 2 := pow_le_pow_left₀ (by positivity) h1 2
    _ = (1 + |u c|) ^ 2 * 4 := by ring

theorem neg_log_wt (u : Fin d → ℝ) : -Real.log (wt u) = ∑ c, 2 * Real.log (1 + |u c|) := by
  unfold wt
  rw [Real.log_prod (fun c _ => by positivity), ← Finset.sum_neg_distrib]
  refine Finset.sum_congr rfl fun c _ => ?_
  rw [Real.log_inv, neg_neg, Real.log_pow]
  norm_num

/-- A law on vectors with a density whose logarithm has no large positive part and components whose logarithms are integrable. -/
structure Dense (Q : Measure (Fin d → ℝ)) (f : (Fin d → ℝ) → ℝ) : Prop where
  meas : Measurable f
  nonneg : ∀ u, 0 ≤ f u
  peak : Integrable (fun u => max 0 (Real.log (f u))) Q
  law : Q = volume.withDensity fun u => ENNReal.ofReal (f u)
  tail : ∀ c, Integrable (fun u => Real.log (1 + |u c|)) Q

variable {Q : Measure (Fin d → ℝ)} [IsProbabilityMeasure Q] {f : (Fin d → ℝ) → ℝ}

theorem Dense.log_wt (D : Dense Q f) : Integrable (fun u => -Real.log (wt u)) Q := by
  simp only [neg_log_wt]
  exact integrable_finset_sum _ fun c _ => (D.tail c).const_mul 2

theorem Dense.integrable (D : Dense Q f) : Integrable f volume := by
  refine ⟨D.meas.aestronglyMeasurable, ?_⟩
  have h1 : Q Set.univ = 1 := measure_univ
  rw [D.law, withDensity_apply _ MeasurableSet.univ, setLIntegral_univ] at h1
  unfold HasFiniteIntegral
  simp only [Real.enorm_eq_ofReal (D.nonneg _)]
  rw [h1]
  exact ENNReal.one_lt_top

/-- The mean of the kernel is the blurred density. -/
theorem rowMean_blur (k : Kernel) (D : Dense Q f) {h : ℝ} (hh : 0 < h) (u : Fin d → ℝ) :
    rowMean Q (pairKernel (shape k) h) u / (mass k d * h ^ d) = blur (bump k) f (mass k d) h u := by
  have h1 : rowMean Q (pairKernel (shape k) h) u = ∫ v, f v * pairKernel (shape k) h (u, v) := by
    unfold rowMean
    rw [D.law, integral_withDensity_eq_integral_toReal_smul (by have := D.meas; fun_prop) (.of_forall fun _ => ENNReal.ofReal_lt_top)]
    simp only [ENNReal.toReal_ofReal (D.nonneg _), smul_eq_mul]
  have h2 := Measure.integral_comp_smul (volume : Measure (Fin d → ℝ)) (fun v => f (u + v) * pairKernel (shape k) h (u, u + v)) h
  have h3 := integral_add_left_eq_self (μ := (volume : Measure (Fin d → ℝ))) (fun v => f v * pairKernel (shape k) h (u, v)) u
  rw [h3, ← h1] at h2
  have h4 : ∀ w : Fin d → ℝ, pairKernel (shape k) h (u, u + h • w) = bump k w := fun w => by
    unfold pairKernel bump
    congr 1
    rw [dist_eq_norm]
    have : (WithLp.toLp 2 u : EuclideanSpace ℝ (Fin d)) - WithLp.toLp 2 (u + h • w) = -(h • WithLp.toLp 2 w) := by
      rw [WithLp.toLp_add, WithLp.toLp_smul]
      abel
    simp only [this, norm_neg, norm_smul, Real.norm_eq_abs, abs_of_pos hh]
    field_simp
  simp only [h4, Module.finrank_fin_fun, smul_eq_mul] at h2
  unfold blur
  simp only [mul_comm (bump k _)]
  rw [h2, abs_of_pos (by positivity)]
  have := mass_pos k d
  field_simp

/-- The volume of a cell. -/
theorem volume_cell {s : ℝ} (hs : 0 < s) (k : Fin d → ℤ) :
    volume ((fun (u : Fin d → ℝ) (i : Fin d) => ⌊u i / s⌋) ⁻¹' {k}) = ENNReal.ofReal s ^ d := by
  have : (fun (u : Fin d → ℝ) (i : Fin d) => ⌊u i / s⌋) ⁻¹' {k} = Set.univ.pi fun i => Set.Ico (k i * s) ((k i + 1) * s) := by
    ext u
    simp only [Set.mem_preimage, Set.mem_singleton_iff, funext_iff, Set.mem_univ_pi, Set.mem_Ico, Int.floor_eq_iff, le_div_iff₀ hs, div_lt_iff₀ hs]
  rw [this, volume_pi_pi]
  simp only [Real.volume_Ico]
  rw [Finset.prod_congr rfl fun i _ => show ENNReal.ofReal ((k i + 1) * s - k i * s) = ENNReal.ofReal s by congr 1; ring]
  simp

/-- The constant in `recip_kernel_le`. -/
noncomputable def recipConst (k : Kernel) (d : ℕ) : ℝ := (8 * ((d : ℝ) + 1)) ^ d / shape k (1 / 2) * ∫ u : Fin d → ℝ, wt u

theorem recipConst_nonneg (k : Kernel) (d : ℕ) : 0 ≤ recipConst k d := by
  have := shape_half k
  have h2 : 0 ≤ ∫ u : Fin d → ℝ, wt u := integral_nonneg fun u => (wt_pos u).le
  unfold recipConst
  positivity

/-- The mean of the weight divided by the blurred probability grows at most like the number of cells. -/
theorem recip_kernel_le (k : Kernel) {h : ℝ} (hh : 0 < h) (h1 : h ≤ 1) :
    (∀ᵐ u ∂Q, 0 < rowMean Q (pairKernel (shape k) h) u) ∧ Integrable (fun u => wt u * (1 / rowMean Q (pairKernel (shape k) h) u)) Q ∧
      ∫ u, wt u * (1 / rowMean Q (pairKernel (shape k) h) u) ∂Q ≤ recipConst k d / h ^ d := by
  have hd1 : (0 : ℝ) < (d : ℝ) + 1 := by positivity
  set s := h / (2 * ((d : ℝ) + 1)) with hs
  have hs0 : 0 < s := by positivity
  have hs1 : s ≤ 1 := by
    rw [hs, div_le_one (by positivity)]
    have : (0 : ℝ) ≤ d := Nat.cast_nonneg d
    linarith
  have hc : Measurable fun (u : Fin d → ℝ) (i : Fin d) => ⌊u i / s⌋ :=
    measurable_pi_lambda _ fun i => by
      have : Measurable fun u : Fin d → ℝ => u i / s := by fun_prop
      exact Int.measurable_floor.comp this
  have hnear : ∀ u v : Fin d → ℝ, (fun i => ⌊u i / s⌋) = (fun i => ⌊v i / s⌋) → ∀ i, |u i - v i| ≤ s := fun u v huv i => by
    have := Int.abs_sub_lt_one_of_floor_eq_floor (congrFun huv i)
    rw [← sub_div, abs_div, abs_of_pos hs0, div_lt_one hs0] at this
    exact this.le
  have mp : Measurable (rowMean Q (pairKernel (shape k) h)) := measurable_rowMean (measurable_pairKernel' k h)
  have hγ := shape_half k
  obtain ⟨r1, r2⟩ := recip_weight_le (P := Q) hc (ν := volume) (a := ENNReal.ofReal s ^ d)
    (pow_ne_zero _ (by simpa using hs0)) (ENNReal.pow_ne_top ENNReal.ofReal_ne_top) (volume_cell hs0)
    (w := fun u => ENNReal.ofReal (wt u)) measurable_wt.ennreal_ofReal (C := ENNReal.ofReal (4 ^ d)) (fun u v huv => by
      rw [← ENNReal.ofReal_mul (by positivity)]
      exact ENNReal.ofReal_le_ofReal (wt_near fun c => (hnear u v huv c).trans hs1))
    (shape_half k) mp (fun u => by
      set A : Set (Fin d → ℝ) := (fun (u : Fin d → ℝ) (i : Fin d) => ⌊u i / s⌋) ⁻¹' {fun i => ⌊u i / s⌋} with hA
      have mA : MeasurableSet A := hc (measurableSet_singleton _)
      have e : shape k (1 / 2) * Q.real A = ∫ v, A.indicator (fun _ => shape k (1 / 2)) v ∂Q := by
        rw [integral_indicator_const _ mA, smul_eq_mul, mul_comm]
      show shape k (1 / 2) * Q.real A ≤ _
      rw [e]
      refine integral_mono ((integrable_const _).indicator mA)
        (kernel_bdd_integrable (measurable_pairKernel' k h) (pairKernel_nonneg hh) (pairKernel_le hh) u) fun v => ?_
      by_cases hv : v ∈ A
      · rw [Set.indicator_of_mem hv]
        refine shape_mono k (div_nonneg dist_nonneg hh.le) ?_
        have hi : ∀ i, |u i - v i| ≤ s := hnear u v hv.symm
        rw [div_le_iff₀ hh]
        refine le_of_sq_le_sq ?_ (by positivity)
        rw [pairDist_sq (u, v)]
        calc ∑ c, (u c - v c) ^ 2 ≤ ∑ _c : Fin d, s ^ 2 := Finset.sum_le_sum fun c _ => by rw [← sq_abs]; exact pow_le_pow_left₀ (abs_nonneg _) (hi c) 2
          _ = d * s ^ 2 := by simp
          _ ≤ ((d : ℝ) + 1) ^ 2 * s ^ 2 := by
            refine mul_le_mul_of_nonneg_right ?_ (sq_nonneg s)
            have : (0 : ℝ) ≤ d := Nat.cast_nonneg d
            nlinarith
          _ = (1 / 2 * h) ^ 2 := by rw [hs]; field_simp
      · rw [Set.indicator_of_notMem hv]
        exact pairKernel_nonneg hh _)
  have e1 : ∀ᵐ u ∂Q, ENNReal.ofReal (wt u) * ENNReal.ofReal (1 / rowMean Q (pairKernel (shape k) h) u)
      = ENNReal.ofReal (wt u * (1 / rowMean Q (pairKernel (shape k) h) u)) := .of_forall fun u => (ENNReal.ofReal_mul (wt_pos u).le).symm
  rw [lintegral_congr_ae e1] at r2
  have e2 : ENNReal.ofReal (4 ^ d) * (ENNReal.ofReal s ^ d)⁻¹ * ENNReal.ofReal (1 / shape k (1 / 2)) * ∫⁻ u : Fin d → ℝ, ENNReal.ofReal (wt u)
      = ENNReal.ofReal (recipConst k d / h ^ d) := by
    rw [← ofReal_integral_eq_lintegral_ofReal wt_integrable (.of_forall fun u => (wt_pos u).le), ← ENNReal.ofReal_pow hs0.le,
      ← ENNReal.ofReal_inv_of_pos (by positivity), ← ENNReal.ofReal_mul (by positivity), ← ENNReal.ofReal_mul (by positivity),
      ← ENNReal.ofReal_mul (by positivity)]
    congr 1
    unfold recipConst
    have : (4 : ℝ) ^ d * (s ^ d)⁻¹ = (8 * ((d : ℝ) + 1)) ^ d / h ^ d := by
      rw [← inv_pow, ← mul_pow, ← div_pow, hs]
      congr 1
      field_simp
      norm_num
    rw [this]
    ring
  rw [e2] at r2
  have n1 : ∀ u, 0 ≤ wt u * (1 / rowMean Q (pairKernel (shape k) h) u) := fun u =>
    mul_nonneg (wt_pos u).le (one_div_nonneg.2 (rowMean_nonneg' (measurable_pairKernel' k h) (pairKernel_nonneg hh) (pairKernel_le hh) u))
  have mm : Measurable fun u => wt u * (1 / rowMean Q (pairKernel (shape k) h) u) := measurable_wt.mul (mp.const_div 1)
  have i1 : Integrable (fun u => wt u * (1 / rowMean Q (pairKernel (shape k) h) u)) Q := by
    refine ⟨mm.aestronglyMeasurable, ?_⟩
    unfold HasFiniteIntegral
    simp only [Real.enorm_eq_ofReal (n1 _)]
    exact lt_of_le_of_lt r2 ENNReal.ofReal_lt_top
  refine ⟨r1, i1, ?_⟩
  rw [← ofReal_integral_eq_lintegral_ofReal i1 (.of_forall n1)] at r2
  exact (ENNReal.ofReal_le_ofReal_iff (div_nonneg (recipConst_nonneg k d) (by positivity))).1 r2

end BMI.Kde
