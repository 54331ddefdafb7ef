import Verif.Lemmas.MutualInfo
import Mathlib.Probability.Independence.Basic
import Mathlib.MeasureTheory.Integral.Pi
import Mathlib.MeasureTheory.Integral.Prod

/-! Variational lower bounds of the Kullback-Leibler divergence and of mutual information. -/

namespace BMI.Neural

open MeasureTheory InformationTheory ProbabilityTheory

/-- Fenchel's inequality for `r ↦ r log r`. -/
theorem mul_le_klFun (r g : ℝ) (hr : 0 ≤ r) : r * g ≤ klFun r - 1 + Real.exp g := by
  rw [klFun_apply]
  rcases hr.eq_or_lt with rfl | hr
  · simp [(Real.exp_pos g).le]
  · have h := Real.add_one_le_exp (g - Real.log r)
    have e : Real.exp (g - Real.log r) = Real.exp g / r := by rw [Real.exp_sub, Real.exp_log hr]
    rw [e, le_div_iff₀ hr] at h
    nlinarith

theorem integrable_of_bdd {Ω : Type*} [MeasurableSpace Ω] (μ : Measure Ω) [IsFiniteMeasure μ] {g : Ω → ℝ}
    (hg : Measurable g) (C : ℝ) (hC : ∀ ω, |g ω| ≤ C) : Integrable g μ :=
  Integrable.of_bound hg.aestronglyMeasurable C (Filter.Eventually.of_forall hC)

theorem integrable_exp_of_bdd {Ω : Type*} [MeasurableSpace Ω] (μ : Measure Ω) [IsFiniteMeasure μ] {g : Ω → ℝ}
    (hg : Measurable g) (C : ℝ) (hC : ∀ ω, |g ω| ≤ C) : Integrable (fun ω => Real.exp (g ω)) μ :=
  integrable_of_bdd μ hg.exp (Real.exp C) fun ω => by
    rw [abs_of_pos (Real.exp_pos _)]
    exact Real.exp_le_exp.2 ((le_abs_self _).trans (hC ω))

/-- The NWJ bound. -/
theorem gibbs {Ω : Type*} [MeasurableSpace Ω] (P Q : Measure Ω) [IsProbabilityMeasure P] [IsProbabilityMeasure Q]
    {g : Ω → ℝ} (hP : Integrable g P) (hQ : Integrable (fun ω => Real.exp (g ω)) Q) :
    ENNReal.ofReal (∫ ω, g ω ∂P - ∫ ω, Real.exp (g ω) ∂Q + 1) ≤ klDiv P Q := by
  by_cases htop : klDiv P Q = ⊤
  · rw [htop]; exact le_top
  obtain ⟨hac, hint⟩ := klDiv_ne_top_iff.1 htop
  rw [ENNReal.ofReal_le_iff_le_toReal htop, toReal_klDiv_eq_integral_klFun hac, ← integral_rnDeriv_smul hac]
  simp only [smul_eq_mul]
  have i1 : Integrable (fun ω => (P.rnDeriv Q ω).toReal * g ω) Q := by
    have := (integrable_rnDeriv_smul_iff (f := g) hac).2 hP
    simpa using this
  have i2 : Integrable (fun ω => klFun (P.rnDeriv Q ω).toReal) Q := (integrable_klFun_rnDeriv_iff hac).2 hint
  have i4 : Integrable (fun ω => klFun (P.rnDeriv Q ω).toReal - 1) Q := i2.sub (integrable_const 1)
  have h : _ ≤ ∫ ω, (klFun (P.rnDeriv Q ω).toReal - 1 + Real.exp (g ω)) ∂Q := integral_mono i1 (i4.add hQ) fun ω =>
    mul_le_klFun (P.rnDeriv Q ω).toReal (g ω) ENNReal.toReal_nonneg
  rw [integral_add i4 hQ, integral_sub i2 (integrable_const 1)] at h
  simp only [integral_const, probReal_univ, smul_eq_mul, mul_one] at h
  linarith

/-- The Donsker-Varadhan bound. -/
theorem donskerVaradhan_bound {Ω : Type*} [MeasurableSpace Ω] (P Q : Measure Ω) [IsProbabilityMeasure P]
    [IsProbabilityMeasure Q] {g : Ω → ℝ} (hP : Integrable g P) (hQ : Integrable (fun ω => Real.exp (g ω)) Q) :
    ENNReal.ofReal (∫ ω, g ω ∂P - Real.log (∫ ω, Real.exp (g ω) ∂Q)) ≤ klDiv P Q := by
  have hz : 0 < ∫ ω, Real.exp (g ω) ∂Q := integral_exp_pos hQ
  set z := ∫ ω, Real.exp (g ω) ∂Q with hzdef
  have e0 : (fun ω => Real.exp (g ω - Real.log z)) = fun ω => Real.exp (g ω) / z := by
    funext ω
    rw [Real.exp_sub, Real.exp_log hz]
  have h := gibbs P Q (hP.sub (integrable_const (Real.log z))) (by
    simp only [Pi.sub_apply]
    rw [e0]
    exact hQ.div_const _)
  simp only [Pi.sub_apply] at h
  have e1 : ∫ ω, (g ω - Real.log z) ∂P = ∫ ω, g ω ∂P - Real.log z := by
    rw [integral_sub hP (integrable_const _)]
    simp
  have e2 : ∫ ω, Real.exp (g ω - Real.log z) ∂Q = 1 := by
    rw [e0, integral_div, ← hzdef, div_self hz.ne']
  rw [e1, e2] at h
  simpa using h

variable {X Y : Type} [MeasurableSpace X] [MeasurableSpace Y]

/-- In an independent batch, `x_i` and `y_j` of different pairs are independent with the marginal laws. -/
theorem map_cross (P : Measure (X × Y)) [IsProbabilityMeasure P] {n : ℕ} {i j : Fin n} (hij : i ≠ j) :
    (Measure.pi fun _ : Fin n => P).map (fun b => ((b i).1, (b j).2)) = P.fst.prod P.snd := by
  have hi : iIndepFun (fun (i : Fin n) (b : Fin n → X × Y) => b i) (Measure.pi fun _ : Fin n => P) :=
    iIndepFun_pi (μ := fun _ : Fin n => P) (X := fun _ => id) fun _ => aemeasurable_id
  have h2 := (hi.indepFun hij).comp measurable_fst measurable_snd
  rw [indepFun_iff_map_prod_eq_prod_map_map (measurable_fst.comp (measurable_pi_apply i)).aemeasurable
    (measurable_snd.comp (measurable_pi_apply j)).aemeasurable] at h2
  refine h2.trans ?_
  congr 1
  · have := (measurePreserving_eval (fun _ : Fin n => P) i).map_eq
    exact (Measure.map_map measurable_fst (measurable_pi_apply i)).symm.trans (congrArg (Measure.map Prod.fst) this)
  · have := (measurePreserving_eval (fun _ : Fin n => P) j).map_eq
    exact (Measure.map_map measurable_snd (measurable_pi_apply j)).symm.trans (congrArg (Measure.map Prod.snd) this)

/-- Exchangeable shares average to one. -/
theorem integral_share (ν : Measure Y) [IsProbabilityMeasure ν] (m : ℕ) (w : Y → ℝ) (hw : Measurable w)
    (hpos : ∀ y, 0 < w y) (i : Fin (m + 1)) :
    ∫ b, w (b i) / ((∑ j, w (b j)) / (m + 1 : ℕ)) ∂(Measure.pi fun _ : Fin (m + 1) => ν) = 1 := by
  have hS : ∀ b : Fin (m + 1) → Y, 0 < ∑ j, w (b j) := fun b =>
    Finset.sum_pos (fun j _ => hpos _) Finset.univ_nonempty
  have hm : ∀ i : Fin (m + 1), Measurable fun b : Fin (m + 1) → Y => w (b i) / ((∑ j, w (b j)) / (m + 1 : ℕ)) := by
    intro i
    have : Measurable fun b : Fin (m + 1) → Y => ∑ j, w (b j) :=
      Finset.measurable_sum _ fun j _ => hw.comp (measurable_pi_apply j)
    exact (hw.comp (measurable_pi_apply i)).div (this.div_const _)
  have hn : (0 : ℝ) < (m + 1 : ℕ) := by positivity
  have hb : ∀ (i : Fin (m + 1)) (b : Fin (m + 1) → Y), |w (b i) / ((∑ j, w (b j)) / (m + 1 : ℕ))| ≤ (m + 1 : ℕ) := by
    intro i b
    rw [abs_of_pos (div_pos (hpos _) (div_pos (hS b) hn)), div_le_iff₀ (div_pos (hS b) hn), mul_div_cancel₀ _ hn.ne']
    exact Finset.single_le_sum (f := fun j => w (b j)) (fun j _ => (hpos _).le) (Finset.mem_univ i)
  have hswap : ∀ i : Fin (m + 1),
      ∫ b, w (b i) / ((∑ j, w (b j)) / (m + 1 : ℕ)) ∂(Measure.pi fun _ : Fin (m + 1) => ν)
        = ∫ b, w (b 0) / ((∑ j, w (b j)) / (m + 1 : ℕ)) ∂(Measure.pi fun _ : Fin (m + 1) => ν) := by
    intro i
    have h := measurePreserving_piCongrLeft (fun _ : Fin (m + 1) => ν) (Equiv.swap i 0)
    rw [← h.integral_comp' (f := MeasurableEquiv.piCongrLeft (fun _ => Y) (Equiv.swap i 0))]
    refine integral_congr_ae (Filter.Eventually.of_forall fun b => ?_)
    have e : ∀ j, (MeasurableEquiv.piCongrLeft (fun _ : Fin (m + 1) => Y) (Equiv.swap i 0)) b j
        = b (Equiv.swap i 0 j) := by
      intro j
      have := Equiv.piCongrLeft_apply_apply (fun _ : Fin (m + 1) => Y) (Equiv.swap i 0) b (Equiv.swap i 0 j)
      rw [Equiv.swap_apply_self] at this
      exact this
    simp only [e]
    rw [Equiv.swap_apply_left, Equiv.sum_comp (Equiv.swap i 0) fun j => w (b j)]
  have hsum : ∑ i : Fin (m + 1), ∫ b, w (b i) / ((∑ j, w (b j)) / (m + 1 : ℕ)) ∂(Measure.pi fun _ : Fin (m + 1) => ν)
      = (m + 1 : ℕ) := by
    rw [← integral_finsetSum _ fun i _ => integrable_of_bdd _ (hm i) _ (hb i)]
    have : ∀ b : Fin (m + 1) → Y, ∑ i, w (b i) / ((∑ j, w (b j)) / (m + 1 : ℕ)) = (m + 1 : ℕ) := by
      intro b
      rw [← Finset.sum_div]
      have := (hS b).ne'
      field_simp
    simp only [this]
    simp
  rw [Finset.sum_congr rfl fun i _ => hswap i, Finset.sum_const, Finset.card_univ, Fintype.card_fin, nsmul_eq_mul] at hsum
  rw [hswap i]
  exact mul_left_cancel₀ hn.ne' (hsum.trans (mul_one _).symm)

end BMI.Neural
