import Mathlib.MeasureTheory.Function.LpSpace.DomAct.Continuous
import Mathlib.MeasureTheory.Function.L1Space.AEEqFun
import Mathlib.MeasureTheory.Integral.Bochner.Basic
import Mathlib.MeasureTheory.Group.Integral
import Mathlib.MeasureTheory.Integral.Prod
import Mathlib.MeasureTheory.Measure.Haar.NormedSpace
import Mathlib.MeasureTheory.Measure.Lebesgue.EqHaar
import Mathlib.Analysis.SpecialFunctions.Log.Basic

/-! Densities smoothed by narrow kernels. -/

namespace BMI.Mollify

open MeasureTheory Filter Topology

variable {d : ℕ}

/-- Small shifts change an integrable function little in the mean. -/
theorem shift_small {f : (Fin d → ℝ) → ℝ} (hf : Integrable f volume) :
    Tendsto (fun v : Fin d → ℝ => ∫⁻ u, ‖f (u + v) - f u‖ₑ) (𝓝 0) (𝓝 0) := by
  have hl : MemLp f 1 volume := memLp_one_iff_integrable.2 hf
  haveI : Fact ((1 : ENNReal) ≠ ⊤) := ⟨ENNReal.one_ne_top⟩
  have hc : Continuous fun v : Fin d → ℝ => (DomAddAct.mk v) +ᵥ hl.toLp f := by
    have h1 : Continuous fun q : (Fin d → ℝ)ᵈᵃᵃ × Lp ℝ 1 (volume : Measure (Fin d → ℝ)) => q.1 +ᵥ q.2 := continuous_vadd
    exact h1.comp ((DomAddAct.continuous_mk (M := Fin d → ℝ)).prodMk continuous_const)
  have h1 : Tendsto (fun v : Fin d → ℝ => edist ((DomAddAct.mk v) +ᵥ hl.toLp f) (hl.toLp f)) (𝓝 0) (𝓝 0) := by
    have h2 := (hc.tendsto 0).edist (tendsto_const_nhds (x := hl.toLp f))
    have h3 : (DomAddAct.mk (0 : Fin d → ℝ)) +ᵥ hl.toLp f = hl.toLp f := by
      exact zero_vadd _ _
    rw [h3, edist_self] at h2
    exact h2
  refine h1.congr fun v => ?_
  rw [DomAddAct.mk_vadd_toLp, Lp.edist_toLp_toLp, eLpNorm_one_eq_lintegral_enorm]
  refine lintegral_congr fun u => ?_
  simp only [Pi.sub_apply, vadd_eq_add, add_comm v u]

section
variable {f κ : (Fin d → ℝ) → ℝ} {Z : ℝ}

/-- The function smoothed with a kernel of width `h`. -/
noncomputable def blur (κ f : (Fin d → ℝ) → ℝ) (Z h : ℝ) (u : Fin d → ℝ) : ℝ := (∫ w, κ w * f (u + h • w)) / Z

theorem blur_small (hfm : Measurable f) (hf : Integrable f volume) (hκm : Measurable κ) (hκ1 : ∀ w, |κ w| ≤ 1) (hκ : Integrable κ volume)
    (hZ : ∫ w, κ w = Z) (hZ0 : 0 < Z) :
    Tendsto (fun h : ℝ => ∫⁻ u, ‖blur κ f Z h u - f u‖ₑ) (𝓝 0) (𝓝 0) := by
  have hprod : ∀ h : ℝ, Measurable fun p : (Fin d → ℝ) × (Fin d → ℝ) => ‖κ p.2‖ₑ * ‖f (p.1 + h • p.2) - f p.1‖ₑ := fun h => by
    have : Measurable fun p : (Fin d → ℝ) × (Fin d → ℝ) => p.1 + h • p.2 := by fun_prop
    exact (hκm.comp measurable_snd).enorm.mul ((hfm.comp this).sub (hfm.comp measurable_fst)).enorm
  have hle : ∀ h : ℝ, ∫⁻ u, ‖blur κ f Z h u - f u‖ₑ ≤ (∫⁻ w, ‖κ w‖ₑ * ∫⁻ u, ‖f (u + h • w) - f u‖ₑ) / ENNReal.ofReal Z := by
    intro h
    have h1 : ∀ u, ‖blur κ f Z h u - f u‖ₑ ≤ (∫⁻ w, ‖κ w‖ₑ * ‖f (u + h • w) - f u‖ₑ) / ENNReal.ofReal Z := by
      intro u
      have hi : Integrable (fun w => κ w * f (u + h • w)) volume := by
        rcases eq_or_ne h 0 with rfl | h0
        · simp only [zero_smul, add_zero]
          exact hκ.mul_const _
        · exact ((hf.comp_add_left u).comp_smul h0).bdd_mul (c := 1) hκm.aestronglyMeasurable (.of_forall fun w => hκ1 w)
      have e : blur κ f Z h u - f u = (∫ w, κ w * (f (u + h • w) - f u)) / Z := by
        simp only [mul_sub]
        rw [integral_sub hi (hκ.mul_const _), integral_mul_const, hZ, sub_div, mul_div_cancel_left₀ _ hZ0.ne']
        rfl
      rw [e, div_eq_mul_inv, enorm_mul, Real.enorm_of_nonneg (inv_nonneg.2 hZ0.le), ENNReal.ofReal_inv_of_pos hZ0, ← div_eq_mul_inv]
      refine ENNReal.div_le_div_right ?_ _
      refine (enorm_integral_le_lintegral_enorm _).trans (lintegral_mono fun w => ?_)
      rw [enorm_mul]
    calc ∫⁻ u, ‖blur κ f Z h u - f u‖ₑ ≤ ∫⁻ u, (∫⁻ w, ‖κ w‖ₑ * ‖f (u + h • w) - f u‖ₑ) / ENNReal.ofReal Z := lintegral_mono h1
      _ = (∫⁻ u, ∫⁻ w, ‖κ w‖ₑ * ‖f (u + h • w) - f u‖ₑ) / ENNReal.ofReal Z := by
          simp only [div_eq_mul_inv]
          rw [lintegral_mul_const _ (hprod h).lintegral_prod_right']
      _ = (∫⁻ w, ∫⁻ u, ‖κ w‖ₑ * ‖f (u + h • w) - f u‖ₑ) / ENNReal.ofReal Z := by
          rw [lintegral_lintegral_swap (hprod h).aemeasurable]
      _ = _ := by
          congr 1
          refine lintegral_congr fun w => ?_
          rw [lintegral_const_mul]
          exact ((hfm.comp (measurable_id.add_const _)).sub hfm).enorm
  have hlim : Tendsto (fun h : ℝ => (∫⁻ w, ‖κ w‖ₑ * ∫⁻ u, ‖f (u + h • w) - f u‖ₑ) / ENNReal.ofReal Z) (𝓝 0) (𝓝 0) := by
    have h1 : Tendsto (fun h : ℝ => ∫⁻ w, ‖κ w‖ₑ * ∫⁻ u, ‖f (u + h • w) - f u‖ₑ) (𝓝 0) (𝓝 (∫⁻ _ : Fin d → ℝ, 0)) := by
      have hfin : ∫⁻ u, ‖f u‖ₑ ≠ ⊤ := hf.2.ne
      refine tendsto_lintegral_filter_of_dominated_convergence (fun w => ‖κ w‖ₑ * (2 * ∫⁻ u, ‖f u‖ₑ)) ?_ ?_ ?_ ?_
      · refine .of_forall fun h => ?_
        refine hκm.enorm.mul ?_
        have hp : Measurable fun p : (Fin d → ℝ) × (Fin d → ℝ) => ‖f (p.2 + h • p.1) - f p.2‖ₑ := by
          have : Measurable fun p : (Fin d → ℝ) × (Fin d → ℝ) => p.2 + h • p.1 := by fun_prop
          exact ((hfm.comp this).sub (hfm.comp measurable_snd)).enorm
        exact hp.lintegral_prod_right'
      · refine .of_forall fun h => .of_forall fun w => ?_
        refine mul_le_mul_right ?_ _
        calc ∫⁻ u, ‖f (u + h • w) - f u‖ₑ ≤ ∫⁻ u, ‖f (u + h • w)‖ₑ + ‖f u‖ₑ := lintegral_mono fun u => enorm_sub_le
          _ = (∫⁻ u, ‖f (u + h • w)‖ₑ) + ∫⁻ u, ‖f u‖ₑ := lintegral_add_right _ hfm.enorm
          _ = 2 * ∫⁻ u, ‖f u‖ₑ := by
              rw [lintegral_add_right_eq_self (fun u => ‖f u‖ₑ), two_mul]
      · rw [lintegral_mul_const _ hκm.enorm]
        exact ENNReal.mul_ne_top hκ.2.ne (ENNReal.mul_ne_top (by norm_num) hfin)
      · refine .of_forall fun w => ?_
        have h2 : Tendsto (fun h : ℝ => h • w) (𝓝 0) (𝓝 0) := by
          have : Continuous fun h : ℝ => h • w := by fun_prop
          have := this.tendsto 0
          rwa [zero_smul] at this
        have h3 := ENNReal.Tendsto.const_mul ((shift_small hf).comp h2) (a := ‖κ w‖ₑ) (.inr enorm_ne_top)
        rw [mul_zero] at h3
        exact h3
    rw [lintegral_zero] at h1
    have := ENNReal.Tendsto.div_const h1 (b := ENNReal.ofReal Z) (.inr (by simpa using hZ0))
    rwa [ENNReal.zero_div] at this
  exact tendsto_of_tendsto_of_tendsto_of_le_of_le tendsto_const_nhds hlim (fun _ => bot_le) hle

end

/-- Logarithms of two numbers, the second one at most `M`. -/
theorem abs_log_sub_log_le {a b M η : ℝ} (ha : 0 < a) (hb : 0 < b) (hbM : b ≤ M) (hη : 0 < η) :
    |Real.log a - Real.log b| ≤ (1 + M / η) * (|a - b| / b) + η / a := by
  have hM : 0 < M := lt_of_lt_of_le hb hbM
  rcases le_total b a with h | h
  · rw [abs_of_nonneg (sub_nonneg.2 (Real.log_le_log hb h)), abs_of_nonneg (sub_nonneg.2 h)]
    have h1 := Real.log_le_sub_one_of_pos (div_pos ha hb)
    rw [Real.log_div ha.ne' hb.ne', div_sub_one hb.ne'] at h1
    have h2 : 0 ≤ (a - b) / b := div_nonneg (sub_nonneg.2 h) hb.le
    have h3 : 0 ≤ M / η * ((a - b) / b) := by positivity
    have h4 : 0 < η / a := by positivity
    linarith
  · rw [abs_of_nonpos (sub_nonpos.2 (Real.log_le_log ha h)), abs_of_nonpos (sub_nonpos.2 h)]
    have ht : 1 ≤ b / a := (one_le_div ha).2 h
    have h1 := Real.log_le_sub_one_of_pos (Real.sqrt_pos.2 (div_pos hb ha))
    rw [Real.log_sqrt (by positivity), Real.log_div hb.ne' ha.ne'] at h1
    set X := M / η * ((b - a) / b) with hX
    set Y := η / a with hY
    have hX0 : 0 ≤ X := by
      have : 0 ≤ b - a := sub_nonneg.2 h
      positivity
    have hY0 : 0 < Y := by positivity
    have hXY : b / a - 1 ≤ X * Y := by
      have e : X * Y = M / b * (b / a - 1) := by
        rw [hX, hY]
        field_simp
      rw [e]
      exact le_mul_of_one_le_left (by linarith) ((one_le_div hb).2 hbM)
    have hs : Real.sqrt (b / a) - 1 ≤ Real.sqrt (X * Y) := by
      have h2 : Real.sqrt (b / a) ≤ 1 + Real.sqrt (X * Y) := by
        refine Real.sqrt_le_iff.2 ⟨by positivity, ?_⟩
        have := Real.sq_sqrt (mul_nonneg hX0 hY0.le)
        nlinarith [Real.sqrt_nonneg (X * Y)]
      linarith
    have hamgm : 2 * Real.sqrt (X * Y) ≤ X + Y := by
      rw [Real.sqrt_mul hX0]
      nlinarith [Real.sq_sqrt hX0, Real.sq_sqrt hY0.le, sq_nonneg (Real.sqrt X - Real.sqrt Y)]
    have h5 : 0 ≤ (b - a) / b := div_nonneg (sub_nonneg.2 h) hb.le
    have e : (1 + M / η) * (-(a - b) / b) = (b - a) / b + X := by
      rw [hX]
      ring
    rw [e]
    linarith

end BMI.Mollify
