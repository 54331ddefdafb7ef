import Verif.Lemmas.BatchLimit
import Verif.Lemmas.Variational
import Mathlib.MeasureTheory.Function.ContinuousMapDense
import Mathlib.MeasureTheory.Measure.Decomposition.IntegralRNDeriv

/-! The Donsker-Varadhan formula: the divergence of two laws is the supremum of the bound over bounded functions, measurable or continuous. -/

namespace BMI.Neural

open MeasureTheory ProbabilityTheory Filter Topology InformationTheory

variable {E : Type} [MeasurableSpace E] {P Q : Measure E} [IsProbabilityMeasure P] [IsProbabilityMeasure Q]

/-- The Donsker-Varadhan bound. -/
noncomputable def dvValue (P Q : Measure E) (f : E → ℝ) : ℝ := ∫ x, f x ∂P - Real.log (∫ x, Real.exp (f x) ∂Q)

theorem clamp_gain {r c : ℝ} (hr : 0 ≤ r) (hc : 0 < c) (h : (1 ≤ c ∧ c ≤ r) ∨ (r ≤ c ∧ c ≤ 1)) : 0 ≤ r * Real.log c - c + 1 := by
  have h1 := Real.one_sub_inv_le_log_of_pos hc
  have h2 : c - 1 ≤ c * Real.log c := by
    have := mul_le_mul_of_nonneg_left h1 hc.le
    rw [mul_sub, mul_inv_cancel₀ hc.ne'] at this
    linarith
  rcases h with ⟨h3, h4⟩ | ⟨h3, h4⟩
  · have := mul_le_mul_of_nonneg_right h4 (Real.log_nonneg h3)
    linarith
  · have := mul_le_mul_of_nonpos_right h3 (Real.log_nonpos hc.le h4)
    linarith

/-- The density, cut off at `1 / (n + 1)` and `n + 1`. -/
noncomputable def clamp (n : ℕ) (r : ℝ) : ℝ := max (1 / (n + 1 : ℝ)) (min r (n + 1))

theorem clamp_pos (n : ℕ) (r : ℝ) : 0 < clamp n r := lt_of_lt_of_le (by positivity) (le_max_left _ _)

theorem clamp_between (n : ℕ) {r : ℝ} : (1 ≤ clamp n r ∧ clamp n r ≤ r) ∨ (r ≤ clamp n r ∧ clamp n r ≤ 1) := by
  have h1 : 1 / (n + 1 : ℝ) ≤ 1 := by rw [div_le_one (by positivity)]; linarith [(Nat.cast_nonneg n : (0 : ℝ) ≤ n)]
  have h2 : (1 : ℝ) ≤ n + 1 := by linarith [(Nat.cast_nonneg n : (0 : ℝ) ≤ n)]
  unfold clamp
  rcases le_total 1 r with h | h
  · left
    exact ⟨(le_min h h2).trans (le_max_right _ _), max_le (h1.trans h) (min_le_left _ _)⟩
  · right
    rw [min_eq_left (h.trans h2)]
    exact ⟨le_max_right _ _, max_le h1 h⟩

theorem abs_log_clamp_le (n : ℕ) (r : ℝ) : |Real.log (clamp n r)| ≤ Real.log (n + 1) := by
  have h0 : (0 : ℝ) < n + 1 := by positivity
  have h1 : 1 / (n + 1 : ℝ) ≤ clamp n r := le_max_left _ _
  have h2 : clamp n r ≤ n + 1 := by
    refine max_le ?_ (min_le_right _ _)
    rw [div_le_iff₀ h0]
    have : (0 : ℝ) ≤ n := Nat.cast_nonneg n
    nlinarith
  rw [abs_le]
  refine ⟨?_, Real.log_le_log (clamp_pos n r) h2⟩
  have := Real.log_le_log (by positivity) h1
  rwa [one_div, Real.log_inv] at this

theorem clamp_tendsto {r : ℝ} (hr : 0 ≤ r) : Tendsto (fun n : ℕ => r * Real.log (clamp n r) - clamp n r + 1) atTop (𝓝 (klFun r)) := by
  have h1 : Tendsto (fun n : ℕ => 1 / (n + 1 : ℝ)) atTop (𝓝 0) := tendsto_one_div_add_atTop_nhds_zero_nat
  rcases hr.eq_or_lt with h | h
  · subst h
    have : (fun n : ℕ => 0 * Real.log (clamp n 0) - clamp n 0 + 1) = fun n : ℕ => 1 - 1 / (n + 1 : ℝ) := by
      funext n
      have : (0 : ℝ) ≤ n := Nat.cast_nonneg n
      unfold clamp
      rw [min_eq_left (by positivity), max_eq_left (by positivity)]
      ring
    rw [this, klFun_apply]
    simpa using (tendsto_const_nhds (x := (1 : ℝ))).sub h1
  · refine tendsto_const_nhds.congr' ?_
    filter_upwards [h1.eventually (gt_mem_nhds h), eventually_ge_atTop ⌈r⌉₊] with n hn hn'
    have hle : r ≤ n + 1 := (Nat.le_ceil r).trans (by
      have : (⌈r⌉₊ : ℝ) ≤ n := by exact_mod_cast hn'
      linarith)
    unfold clamp
    rw [min_eq_left hle, max_eq_right hn.le, klFun_apply]
    ring

/-- Bounded measurable functions suffice. -/
theorem dv_measurable {c : ℝ} (hc : ENNReal.ofReal c < klDiv P Q) :
    ∃ f : E → ℝ, Measurable f ∧ (∃ D, ∀ x, |f x| ≤ D) ∧ c < dvValue P Q f := by
  by_cases hac : P ≪ Q
  · set r : E → ℝ := fun x => (P.rnDeriv Q x).toReal with hr
    have hrm : Measurable r := (Measure.measurable_rnDeriv P Q).ennreal_toReal
    have hr0 : ∀ x, 0 ≤ r x := fun x => ENNReal.toReal_nonneg
    have hcm : ∀ n, Measurable fun x => clamp n (r x) := fun n => by unfold clamp; fun_prop
    rw [klDiv_eq_lintegral_klFun_of_ac hac] at hc
    have hliminf : ∫⁻ x, ENNReal.ofReal (klFun (P.rnDeriv Q x).toReal) ∂Q ≤
        liminf (fun n => ∫⁻ x, ENNReal.ofReal (r x * Real.log (clamp n (r x)) - clamp n (r x) + 1) ∂Q) atTop := by
      refine le_trans (le_of_eq ?_) (lintegral_liminf_le fun n => by have := hcm n; fun_prop)
      refine lintegral_congr fun x => ?_
      exact ((ENNReal.tendsto_ofReal (clamp_tendsto (hr0 x))).liminf_eq).symm
    obtain ⟨n, hn⟩ := (eventually_lt_of_lt_liminf (hc.trans_le hliminf)).exists
    have hlb : ∀ x, |Real.log (clamp n (r x))| ≤ Real.log (n + 1) := fun x => abs_log_clamp_le n _
    have hfm : Measurable fun x => Real.log (clamp n (r x)) := (hcm n).log
    refine ⟨fun x => Real.log (clamp n (r x)), hfm, ⟨_, hlb⟩, ?_⟩
    have hri : Integrable r Q := Measure.integrable_toReal_rnDeriv
    have i1 : Integrable (fun x => r x * Real.log (clamp n (r x))) Q := by
      have := Integrable.bdd_mul (c := Real.log (n + 1)) hri hfm.aestronglyMeasurable (.of_forall hlb)
      exact this.congr (.of_forall fun x => mul_comm _ _)
    have hexp : ∀ x, Real.exp (Real.log (clamp n (r x))) = clamp n (r x) := fun x => Real.exp_log (clamp_pos _ _)
    have i2 : Integrable (fun x => clamp n (r x)) Q := by
      refine Batch.integrable_bdd (hcm n) (D := n + 1) fun x => ?_
      rw [abs_of_pos (clamp_pos _ _), ← hexp x, ← Real.exp_log (show (0 : ℝ) < n + 1 by positivity)]
      exact Real.exp_le_exp.2 ((le_abs_self _).trans (hlb x))
    have i3 : Integrable (fun x => r x * Real.log (clamp n (r x)) - clamp n (r x) + 1) Q := (i1.sub i2).add (integrable_const _)
    rw [← ofReal_integral_eq_lintegral_ofReal i3 (.of_forall fun x => clamp_gain (hr0 x) (clamp_pos _ _) (clamp_between n))] at hn
    have hn' := lt_of_not_ge fun h => not_le_of_gt hn (ENNReal.ofReal_le_ofReal h)
    have e1 : ∫ x, (r x * Real.log (clamp n (r x)) - clamp n (r x) + 1) ∂Q
        = ∫ x, r x * Real.log (clamp n (r x)) ∂Q - ∫ x, clamp n (r x) ∂Q + 1 := by
      have i4 : Integrable (fun x => r x * Real.log (clamp n (r x)) - clamp n (r x)) Q := i1.sub i2
      rw [integral_add i4 (integrable_const _), integral_sub i1 i2]
      simp
    have e2 : ∫ x, r x * Real.log (clamp n (r x)) ∂Q = ∫ x, Real.log (clamp n (r x)) ∂P := by
      have := integral_rnDeriv_smul hac (f := fun x => Real.log (clamp n (r x)))
      simpa only [smul_eq_mul] using this
    unfold dvValue
    simp only [hexp]
    have hz : 0 < ∫ x, clamp n (r x) ∂Q := by
      rw [integral_pos_iff_support_of_nonneg (fun x => (clamp_pos _ _).le) i2]
      have : Function.support (fun x => clamp n (r x)) = Set.univ := by ext x; simp [(clamp_pos n (r x)).ne']
      rw [this]
      simp
    have := Real.log_le_sub_one_of_pos hz
    rw [e1, e2] at hn'
    linarith
  · obtain ⟨A, hA, hQA, hPA⟩ : ∃ A, MeasurableSet A ∧ Q A = 0 ∧ P A ≠ 0 := by
      unfold Measure.AbsolutelyContinuous at hac
      push Not at hac
      obtain ⟨s, h1, h2⟩ := hac
      exact ⟨toMeasurable Q s, measurableSet_toMeasurable _ _, by rw [measure_toMeasurable, h1], fun h => h2 (measure_mono_null (subset_toMeasurable Q s) h)⟩
    have hp : 0 < P.real A := ENNReal.toReal_pos hPA (measure_ne_top _ _)
    set M := (|c| + 1) / P.real A with hM
    have hM0 : 0 ≤ M := by positivity
    refine ⟨A.indicator fun _ => M, measurable_const.indicator hA, ⟨M, fun x => ?_⟩, ?_⟩
    · by_cases hx : x ∈ A
      · rw [Set.indicator_of_mem hx, abs_of_nonneg hM0]
      · rw [Set.indicator_of_notMem hx, abs_zero]
        exact hM0
    · have h1 : ∫ x, A.indicator (fun _ => M) x ∂P = |c| + 1 := by
        rw [integral_indicator_const _ hA, smul_eq_mul, hM]
        field_simp
      have h2 : ∫ x, Real.exp (A.indicator (fun _ => M) x) ∂Q = 1 := by
        have : (fun x => Real.exp (A.indicator (fun _ => M) x)) =ᵐ[Q] fun _ => 1 := by
          have : ∀ᵐ x ∂Q, x ∉ A := by rw [ae_iff]; simpa using hQA
          filter_upwards [this] with x hx
          rw [Set.indicator_of_notMem hx, Real.exp_zero]
        rw [integral_congr_ae this]
        simp
      unfold dvValue
      rw [h1, h2, Real.log_one]
      linarith [le_abs_self c]

theorem exp_sub_le {a b D : ℝ} (ha : |a| ≤ D) (hb : |b| ≤ D) : Real.exp b - Real.exp a ≤ Real.exp D * |a - b| := by
  have h1 := Real.one_sub_inv_le_log_of_pos (Real.exp_pos (b - a))
  rw [Real.log_exp, ← Real.exp_neg] at h1
  have h2 : Real.exp b * Real.exp (-(b - a)) = Real.exp a := by rw [← Real.exp_add]; congr 1; ring
  have h3 := mul_le_mul_of_nonneg_left h1 (Real.exp_pos b).le
  rw [mul_sub, h2, mul_one] at h3
  refine h3.trans ?_
  calc Real.exp b * (b - a) ≤ Real.exp b * |a - b| := by
        rw [abs_sub_comm]
        exact mul_le_mul_of_nonneg_left (le_abs_self _) (Real.exp_pos b).le
    _ ≤ _ := mul_le_mul_of_nonneg_right (Real.exp_le_exp.2 ((le_abs_self b).trans hb)) (abs_nonneg _)

/-- Functions close in the mean have nearly the same bound. -/
theorem dv_close {f : E → ℝ} (hf : Measurable f) {D : ℝ} (hD : ∀ x, |f x| ≤ D) {c : ℝ} (hc : c < dvValue P Q f) :
    ∃ ε : ℝ, 0 < ε ∧ ∀ g : E → ℝ, Measurable g → (∀ x, |g x| ≤ D) → ∫ x, |f x - g x| ∂P ≤ ε → ∫ x, |f x - g x| ∂Q ≤ ε → c < dvValue P Q g := by
  set C := Real.exp D * Real.exp D + 1 with hC
  have hC0 : 0 < C := by positivity
  refine ⟨(dvValue P Q f - c) / (2 * C), by have := sub_pos.2 hc; positivity, fun g hg hgD h1 h2 => ?_⟩
  set ε := (dvValue P Q f - c) / (2 * C) with hε
  have hε' : ε * C = (dvValue P Q f - c) / 2 := by rw [hε]; field_simp
  have fi := fun (μ : Measure E) [IsProbabilityMeasure μ] => Batch.integrable_bdd (μ := μ) hf hD
  have gi := fun (μ : Measure E) [IsProbabilityMeasure μ] => Batch.integrable_bdd (μ := μ) hg hgD
  have ei : ∀ {k : E → ℝ}, Measurable k → (∀ x, |k x| ≤ D) → Integrable (fun x => Real.exp (k x)) Q := fun hk hkD =>
    Batch.integrable_bdd (Real.measurable_exp.comp hk) (D := Real.exp D) fun x => by
      show |Real.exp _| ≤ _
      rw [Real.abs_exp]
      exact Real.exp_le_exp.2 ((le_abs_self _).trans (hkD x))
  have a1 : ∫ x, f x ∂P - ∫ x, g x ∂P ≤ ε := by
    rw [← integral_sub (fi P) (gi P)]
    exact (le_abs_self _).trans (abs_integral_le_integral_abs.trans h1)
  have hlow : Real.exp (-D) ≤ ∫ x, Real.exp (f x) ∂Q := by
    have := integral_mono (μ := Q) (integrable_const (Real.exp (-D))) (ei hf hD) fun x => Real.exp_le_exp.2 (abs_le.1 (hD x)).1
    simpa using this
  have a2 : ∫ x, Real.exp (g x) ∂Q - ∫ x, Real.exp (f x) ∂Q ≤ Real.exp D * ε := by
    rw [← integral_sub (ei hg hgD) (ei hf hD)]
    refine (integral_mono ((ei hg hgD).sub (ei hf hD)) (((fi Q).sub (gi Q)).abs.const_mul (Real.exp D)) fun x => exp_sub_le (hD x) (hgD x)).trans ?_
    rw [integral_const_mul]
    exact mul_le_mul_of_nonneg_left h2 (Real.exp_pos D).le
  have hz : 0 < ∫ x, Real.exp (f x) ∂Q := (Real.exp_pos _).trans_le hlow
  have hz' : 0 < ∫ x, Real.exp (g x) ∂Q := integral_exp_pos (ei hg hgD)
  have a3 : Real.log (∫ x, Real.exp (g x) ∂Q) - Real.log (∫ x, Real.exp (f x) ∂Q) ≤ Real.exp D * (Real.exp D * ε) := by
    rw [← Real.log_div hz'.ne' hz.ne']
    have hε0 : 0 < ε := by rw [hε]; have := sub_pos.2 hc; positivity
    refine (Real.log_le_sub_one_of_pos (div_pos hz' hz)).trans ?_
    have e : (∫ x, Real.exp (g x) ∂Q) / (∫ x, Real.exp (f x) ∂Q) - 1 = (∫ x, Real.exp (g x) ∂Q - ∫ x, Real.exp (f x) ∂Q) / ∫ x, Real.exp (f x) ∂Q := by
      field_simp
    rw [e, div_le_iff₀ hz]
    refine a2.trans ?_
    have h3 : 1 ≤ Real.exp D * ∫ x, Real.exp (f x) ∂Q := by
      have := mul_le_mul_of_nonneg_left hlow (Real.exp_pos D).le
      rwa [← Real.exp_add, add_neg_cancel, Real.exp_zero] at this
    have h4 : 0 ≤ Real.exp D * ε := by positivity
    nlinarith
  unfold dvValue at hε' ⊢
  have h5 : ε * C = Real.exp D * (Real.exp D * ε) + ε := by rw [hC]; ring
  have h6 : 0 < dvValue P Q f - c := sub_pos.2 hc
  unfold dvValue at h6
  linarith

/-- Bounded continuous functions suffice. -/
theorem dv_continuous [TopologicalSpace E] [TopologicalSpace.PseudoMetrizableSpace E] [BorelSpace E] {c : ℝ} (hc : ENNReal.ofReal c < klDiv P Q) :
    ∃ f : E → ℝ, Continuous f ∧ (∃ D, ∀ x, |f x| ≤ D) ∧ c < dvValue P Q f := by
  obtain ⟨f, hf, ⟨D, hD⟩, hfc⟩ := dv_measurable hc
  obtain ⟨ε, hε, H⟩ := dv_close hf hD hfc
  have hD0 : 0 ≤ D := by
    obtain ⟨x⟩ := (inferInstance : (ae P).NeBot).nonempty
    exact (abs_nonneg _).trans (hD x)
  have hi : Integrable f (P + Q) := (Batch.integrable_bdd hf hD).add_measure (Batch.integrable_bdd hf hD)
  obtain ⟨g, hg, hgi⟩ := hi.exists_boundedContinuous_integral_sub_le hε
  have hgc : Continuous fun x => max (-D) (min (g x) D) := by fun_prop
  have hle : ∀ x, |f x - max (-D) (min (g x) D)| ≤ ‖f x - g x‖ := fun x => by
    have h1 := abs_le.1 (hD x)
    rw [Real.norm_eq_abs]
    rcases le_total (g x) D with h | h
    · rw [min_eq_left h]
      rcases le_total (-D) (g x) with h' | h'
      · rw [max_eq_right h']
      · rw [max_eq_left h', abs_of_nonneg (by linarith), abs_of_nonneg (by linarith)]
        linarith
    · rw [min_eq_right h, max_eq_right (by linarith), abs_of_nonpos (by linarith), abs_of_nonpos (by linarith)]
      linarith
  have hgD : ∀ x, |max (-D) (min (g x) D)| ≤ D := fun x => abs_le.2 ⟨le_max_left _ _, max_le (by linarith) (min_le_right _ _)⟩
  have hdi : Integrable (fun x => ‖f x - g x‖) (P + Q) := (hi.sub hgi).norm
  have key : ∀ μ : Measure E, [IsProbabilityMeasure μ] → μ ≤ P + Q → ∫ x, |f x - max (-D) (min (g x) D)| ∂μ ≤ ε := fun μ _ hμ => by
    have h1 : Integrable (fun x => ‖f x - g x‖) μ := hdi.mono_measure hμ
    refine (integral_mono_of_nonneg (.of_forall fun x => abs_nonneg _) h1 (.of_forall hle)).trans ?_
    exact (integral_mono_measure hμ (.of_forall fun x => norm_nonneg _) hdi).trans hg
  exact ⟨_, hgc, ⟨D, hgD⟩, H _ hgc.measurable hgD (key P (Measure.le_add_right le_rfl)) (key Q (Measure.le_add_left le_rfl))⟩

end BMI.Neural
