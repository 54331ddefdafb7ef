import Verif.Lemmas.Consistency
import Mathlib.Probability.CentralLimitTheorem
import Mathlib.MeasureTheory.Measure.Portmanteau

/-! Means of independent numbers and their standard errors: the central limit theorem for finite samples from a product. -/

namespace BMI.Consistency

open MeasureTheory ProbabilityTheory Filter Topology

variable {E : Type} [MeasurableSpace E] {P : Measure E} [IsProbabilityMeasure P]

/-- The mean of a function over a sample. -/
noncomputable def sampleMean (f : E → ℝ) {n : ℕ} (w : Fin n → E) : ℝ := (∑ i, f (w i)) / n

/-- The standard deviation of a function over a sample. -/
noncomputable def sampleStd (f : E → ℝ) {n : ℕ} (w : Fin n → E) : ℝ := √((∑ i, (f (w i) - (∑ j, f (w j)) / n) ^ 2) / n)

theorem measurable_sampleMean {f : E → ℝ} (hf : Measurable f) (n : ℕ) : Measurable (sampleMean f : (Fin n → E) → ℝ) :=
  (Finset.measurable_sum _ fun i _ => hf.comp (measurable_pi_apply i)).div_const _

theorem measurable_sampleStd {f : E → ℝ} (hf : Measurable f) (n : ℕ) : Measurable (sampleStd f : (Fin n → E) → ℝ) :=
  ((Finset.measurable_sum _ fun i _ => ((hf.comp (measurable_pi_apply i)).sub (measurable_sampleMean hf n)).pow_const 2).div_const
    _).sqrt

theorem sampleStd_sq (f : E → ℝ) {n : ℕ} (hn : n ≠ 0) (w : Fin n → E) :
    (∑ i, (f (w i) - (∑ j, f (w j)) / n) ^ 2) / n = (∑ i, f (w i) ^ 2) / n - ((∑ i, f (w i)) / n) ^ 2 := by
  have hn' : (n : ℝ) ≠ 0 := Nat.cast_ne_zero.2 hn
  have e : ∀ i, (f (w i) - (∑ j, f (w j)) / n) ^ 2 =
      f (w i) ^ 2 - 2 * ((∑ j, f (w j)) / n) * f (w i) + ((∑ j, f (w j)) / n) ^ 2 := fun i => by ring
  simp only [e, Finset.sum_add_distrib, Finset.sum_sub_distrib, ← Finset.mul_sum, Finset.sum_const, Finset.card_univ,
    Fintype.card_fin, nsmul_eq_mul]
  field_simp
  ring

theorem sampleStd_tendsto {f : E → ℝ} (hf : Measurable f) (h2 : MemLp f 2 P) :
    ∀ᵐ ω ∂(Measure.infinitePi fun _ : ℕ => P), Tendsto (fun n : ℕ => sampleStd f (firstPoints n ω)) atTop (𝓝 √Var[f; P]) := by
  filter_upwards [averages f hf (h2.integrable one_le_two), averages (fun x => f x ^ 2) (hf.pow_const 2) h2.integrable_sq] with ω a b
  have hv : Var[f; P] = ∫ x, f x ^ 2 ∂P - (∫ x, f x ∂P) ^ 2 := variance_eq_sub h2
  rw [hv]
  have h := (Real.continuous_sqrt.tendsto _).comp (b.sub (a.pow 2))
  refine h.congr' ?_
  filter_upwards [eventually_ne_atTop 0] with n hn
  show √_ = √_
  exact congrArg Real.sqrt (sampleStd_sq f hn _).symm

/-- The probability that the mean of the sample is at most `z` standard errors away from the mean of the law tends to the
probability that a standard normal number is between `-z` and `z`. -/
theorem interval_tendsto {f : E → ℝ} (hf : Measurable f) (h2 : MemLp f 2 P) (hv : Var[f; P] ≠ 0) (z : ℝ) :
    Tendsto (fun n => (Measure.pi fun _ : Fin n => P) {w | |sampleMean f w - ∫ x, f x ∂P| ≤ z * (sampleStd f w / √n)}) atTop
      (𝓝 (gaussianReal 0 1 (Set.Icc (-z) z))) := by
  set σ := √Var[f; P] with hσ
  have hσ0 : 0 < σ := Real.sqrt_pos.2 (lt_of_le_of_ne (variance_nonneg _ _) hv.symm)
  set Ω := Measure.infinitePi fun _ : ℕ => P with hΩ
  set X : ℕ → (ℕ → E) → ℝ := fun i ω => f (ω i) with hX
  have hmap : ∀ i : ℕ, Ω.map (fun ω => ω i) = P := Measure.infinitePi_map_eval (fun _ : ℕ => P)
  have hmp : ∀ i : ℕ, MeasurePreserving (fun ω : ℕ → E => ω i) Ω P := fun i => ⟨measurable_pi_apply i, hmap i⟩
  have hind : iIndepFun X Ω := iIndepFun_infinitePi (P := fun _ : ℕ => P) (X := fun _ x => f x) fun _ => hf
  have hid0 : ∀ i : ℕ, IdentDistrib (fun ω : ℕ → E => ω i) (fun ω : ℕ → E => ω 0) Ω Ω := fun i =>
    ⟨(measurable_pi_apply i).aemeasurable, (measurable_pi_apply 0).aemeasurable, by rw [hmap, hmap]⟩
  have hid : ∀ i, IdentDistrib (X i) (X 0) Ω Ω := fun i => (hid0 i).comp hf
  have hX2 : MemLp (X 0) 2 Ω := h2.comp_measurePreserving (hmp 0)
  have hvar : Var[X 0; Ω] = Var[f; P] := by
    have := variance_map (X := f) (Y := fun ω : ℕ → E => ω 0) (μ := Ω) hf.aemeasurable (measurable_pi_apply 0).aemeasurable
    rw [hmap] at this
    exact this.symm
  have hmean : ∫ ω, X 0 ω ∂Ω = ∫ x, f x ∂P := by
    have := integral_map (μ := Ω) (φ := fun ω : ℕ → E => ω 0) (f := f) (measurable_pi_apply 0).aemeasurable hf.aestronglyMeasurable
    rw [hmap] at this
    exact this.symm
  have hY : HasLaw (fun x : ℝ => σ * x) (gaussianReal 0 Var[X 0; Ω].toNNReal) (gaussianReal 0 1) := by
    refine ⟨by fun_prop, ?_⟩
    rw [gaussianReal_map_const_mul, mul_zero, mul_one]
    congr 1
    rw [hvar]
    ext
    simp [hσ, Real.sq_sqrt (variance_nonneg f P)]
  have hclt := tendstoInDistribution_inv_sqrt_mul_sum_sub hY hX2 hind hid
  have hfp : ∀ n, Measurable (firstPoints n : (ℕ → E) → Fin n → E) := fun n => measurable_pi_lambda _ fun i => measurable_pi_apply _
  have hSm : ∀ n : ℕ, Measurable fun ω => sampleStd f (firstPoints n ω) := fun n => (measurable_sampleStd hf n).comp (hfp n)
  have hS : TendstoInMeasure Ω (fun (n : ℕ) ω => sampleStd f (firstPoints n ω)) atTop fun _ => σ :=
    tendstoInMeasure_of_tendsto_ae (fun n => (hSm n).aestronglyMeasurable) (sampleStd_tendsto hf h2)
  have hg := hclt.continuous_comp_prodMk_of_tendstoInMeasure_const (g := fun p : ℝ × ℝ => |p.1| - z * p.2) (by fun_prop) hS
    fun n => (hSm n).aemeasurable
  have hlim : ∀ A : Set ℝ, MeasurableSet A → ((gaussianReal 0 1).map fun x : ℝ => |σ * x| - z * σ) A =
      gaussianReal 0 1 ((fun x : ℝ => |σ * x| - z * σ) ⁻¹' A) := fun A hA => Measure.map_apply (by fun_prop) hA
  have hport := ProbabilityMeasure.tendsto_measure_of_null_frontier_of_tendsto' hg.tendsto (E := Set.Iic 0) (by
    show ((gaussianReal 0 1).map fun x : ℝ => |σ * x| - z * σ) (frontier (Set.Iic 0)) = 0
    rw [frontier_Iic, hlim _ (measurableSet_singleton _)]
    have hsub : (fun x : ℝ => |σ * x| - z * σ) ⁻¹' {0} ⊆ {z, -z} := by
      intro x hx
      have hx' : |σ * x| - z * σ = 0 := hx
      rw [abs_mul, abs_of_pos hσ0] at hx'
      have : |x| = z := by
        have : σ * |x| = σ * z := by linarith
        exact mul_left_cancel₀ hσ0.ne' this
      rcases abs_choice x with h | h
      · left; rw [← this, h]
      · right; rw [Set.mem_singleton_iff, ← this, h, neg_neg]
    exact measure_mono_null hsub (gaussianReal_absolutelyContinuous 0 one_ne_zero (Set.Finite.measure_zero (Set.toFinite _) _)))
  have hset : (fun x : ℝ => |σ * x| - z * σ) ⁻¹' Set.Iic 0 = Set.Icc (-z) z := by
    ext x
    simp only [Set.mem_preimage, Set.mem_Iic, sub_nonpos, abs_mul, abs_of_pos hσ0, Set.mem_Icc, ← abs_le]
    rw [mul_comm z σ, mul_le_mul_iff_right₀ hσ0]
  have hport' : Tendsto (fun n : ℕ => (Ω.map fun ω => |(√n)⁻¹ * (∑ k ∈ Finset.range n, X k ω - n * ∫ ω, X 0 ω ∂Ω)| -
      z * sampleStd f (firstPoints n ω)) (Set.Iic 0)) atTop (𝓝 (gaussianReal 0 1 (Set.Icc (-z) z))) := by
    rw [← hset, ← hlim _ measurableSet_Iic]
    exact hport
  refine hport'.congr' ?_
  filter_upwards [eventually_ne_atTop 0] with n hn
  have hms : MeasurableSet {w : Fin n → E | |sampleMean f w - ∫ x, f x ∂P| ≤ z * (sampleStd f w / √n)} :=
    measurableSet_le ((measurable_sampleMean hf n).sub_const _).abs (((measurable_sampleStd hf n).div_const _).const_mul z)
  rw [← map_firstPoints, Measure.map_apply (hfp n) hms, Measure.map_apply_of_aemeasurable (hg.forall_aemeasurable n) measurableSet_Iic]
  congr 1
  ext ω
  simp only [Set.mem_preimage, Set.mem_Iic, sub_nonpos, Set.mem_setOf_eq, hmean]
  have hn0 : 0 < (n : ℝ) := by positivity
  have hs : 0 < √(n : ℝ) := Real.sqrt_pos.2 hn0
  have e1 : (√(n : ℝ))⁻¹ * (∑ k ∈ Finset.range n, X k ω - n * ∫ x, f x ∂P) = √n * (sampleMean f (firstPoints n ω) - ∫ x, f x ∂P) := by
    unfold sampleMean firstPoints
    rw [Finset.sum_range, inv_mul_eq_div, div_eq_iff hs.ne']
    have : √(n : ℝ) * √n = n := Real.mul_self_sqrt hn0.le
    simp only [hX]
    rw [mul_right_comm, this]
    field_simp
  rw [e1, abs_mul, abs_of_pos hs, ← mul_div_assoc, le_div_iff₀ hs, mul_comm (√(n : ℝ))]

end BMI.Consistency
