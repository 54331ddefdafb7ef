import Verif.Lemmas.Cca
import Verif.Lemmas.Consistency
import Mathlib.Analysis.Matrix.Order

/-! The sample covariance converges almost surely. -/

namespace BMI.Consistency

open MeasureTheory ProbabilityTheory Filter BMI.Samplers BMI.Cca Topology

variable {p q : ℕ} {P : Measure ((Fin p → ℝ) × (Fin q → ℝ))} [IsProbabilityMeasure P]
  {S : Matrix (Fin (p + q)) (Fin (p + q)) ℝ}

theorem cov_moments {n : ℕ} (hn : 2 ≤ n) (v w : Fin n → ℝ) :
    Cca.cov v w = (n : ℝ) / (n - 1) * ((∑ s, v s * w s) / n - (∑ s, v s) / n * ((∑ s, w s) / n)) := by
  have h0 : (n : ℝ) ≠ 0 := by positivity
  have h1 : (n : ℝ) - 1 ≠ 0 := by
    have : (2 : ℝ) ≤ n := by exact_mod_cast hn
    linarith
  have e : ∑ s, (v s - Cca.average v) * (w s - Cca.average w) = ∑ s, v s * w s - n * (Cca.average v * Cca.average w) := by
    have e1 : ∀ s, (v s - Cca.average v) * (w s - Cca.average w) = v s * w s - Cca.average w * v s - Cca.average v * w s + Cca.average v * Cca.average w :=
      fun s => by ring
    simp only [e1, Finset.sum_add_distrib, Finset.sum_sub_distrib, ← Finset.mul_sum, Finset.sum_const, Finset.card_univ,
      Fintype.card_fin, nsmul_eq_mul]
    unfold Cca.average
    field_simp
    ring
  unfold Cca.cov
  rw [e]
  unfold Cca.average
  field_simp

theorem measurable_append (i : Fin (p + q)) : Measurable fun z : (Fin p → ℝ) × (Fin q → ℝ) => Fin.append z.1 z.2 i := by
  refine Fin.addCases (fun j => ?_) (fun j => ?_) i
  · simp only [Fin.append_left]; fun_prop
  · simp only [Fin.append_right]; fun_prop

/-- The pairs as rows of one array. -/
def joined {n : ℕ} (z : Fin n → (Fin p → ℝ) × (Fin q → ℝ)) : Fin n → Fin (p + q) → ℝ := fun s => Fin.append (z s).1 (z s).2

theorem measurable_joined {n : ℕ} : Measurable (joined : (Fin n → (Fin p → ℝ) × (Fin q → ℝ)) → Fin n → Fin (p + q) → ℝ) :=
  measurable_pi_lambda _ fun s => measurable_pi_lambda _ fun i => (measurable_append i).comp (measurable_pi_apply s)

theorem continuous_sampleCov {n d : ℕ} : Continuous fun z : Fin n → Fin d → ℝ => sampleCov z := by
  refine continuous_matrix fun i j => ?_
  unfold sampleCov Cca.cov Cca.average
  simp only [Matrix.of_apply]
  fun_prop

theorem sampleCov_tendsto (h : HasCov P S) :
    ∀ᵐ ω ∂(Measure.infinitePi fun _ : ℕ => P), Tendsto (fun n : ℕ => sampleCov (joined (firstPoints n ω))) atTop (𝓝 S) := by
  obtain ⟨hL, hC⟩ := h
  have hint : ∀ i, Integrable (fun z : (Fin p → ℝ) × (Fin q → ℝ) => Fin.append z.1 z.2 i) P := fun i => (hL i).integrable one_le_two
  have a1 := fun i => averages (P := P) _ (measurable_append i) (hint i)
  have a2 := fun i j => averages (P := P) _ ((measurable_append i).mul (measurable_append j)) ((hL i).integrable_mul (hL j))
  have hr : Tendsto (fun n : ℕ => (n : ℝ) / (n - 1)) atTop (𝓝 1) := by
    have : Tendsto (fun n : ℕ => (n : ℝ) / (n + (-1))) atTop (𝓝 1) := tendsto_natCast_div_add_atTop (-1 : ℝ)
    simpa [sub_eq_add_neg] using this
  filter_upwards [ae_all_iff.2 a1, ae_all_iff.2 fun i => ae_all_iff.2 (a2 i)] with ω h1 h2
  refine tendsto_pi_nhds.2 fun i => tendsto_pi_nhds.2 fun j => ?_
  have ht := hr.mul ((h2 i j).sub ((h1 i).mul (h1 j)))
  have hS : 1 * (∫ z : (Fin p → ℝ) × (Fin q → ℝ), (fun z => Fin.append z.1 z.2 i) z * (fun z => Fin.append z.1 z.2 j) z ∂P -
      (∫ z : (Fin p → ℝ) × (Fin q → ℝ), Fin.append z.1 z.2 i ∂P) * ∫ z : (Fin p → ℝ) × (Fin q → ℝ), Fin.append z.1 z.2 j ∂P) = S i j := by
    rw [one_mul, ← hC i j, covariance_eq_sub (hL i) (hL j)]
    rfl
  rw [← hS]
  refine ht.congr' ?_
  filter_upwards [eventually_ge_atTop 2] with n hn
  exact (cov_moments hn _ _).symm

theorem sampleCov_posSemidef {n d : ℕ} (hn : 1 ≤ n) (z : Fin n → Fin d → ℝ) : (sampleCov z).PosSemidef := by
  have e : sampleCov z = ((n : ℝ) - 1)⁻¹ • ((Matrix.of fun s i => z s i - Cca.average fun s => z s i).conjTranspose *
      (Matrix.of fun s i => z s i - Cca.average fun s => z s i)) := by
    ext i j
    simp only [sampleCov, Matrix.of_apply, Cca.cov, Matrix.smul_apply, Matrix.mul_apply, Matrix.conjTranspose_apply, star_trivial,
      smul_eq_mul]
    rw [div_eq_inv_mul]
  rw [e]
  refine (Matrix.posSemidef_conjTranspose_mul_self _).smul (inv_nonneg.2 ?_)
  have : (1 : ℝ) ≤ n := by exact_mod_cast hn
  linarith

/-- The Gaussian formula. -/
noncomputable def gauss (M : Matrix (Fin (p + q)) (Fin (p + q)) ℝ) : ℝ :=
  (Real.log (blockX M).det + Real.log (blockY M).det - Real.log M.det) / 2

theorem continuous_blockX : Continuous fun M : Matrix (Fin (p + q)) (Fin (p + q)) ℝ => (blockX M).det := by
  refine Continuous.matrix_det (continuous_matrix fun i j => ?_)
  unfold blockX
  fun_prop

theorem continuous_blockY : Continuous fun M : Matrix (Fin (p + q)) (Fin (p + q)) ℝ => (blockY M).det := by
  refine Continuous.matrix_det (continuous_matrix fun i j => ?_)
  unfold blockY
  fun_prop

theorem gauss_continuousAt (hS : S.PosDef) : ContinuousAt gauss S := by
  have h1 : ContinuousAt (fun M : Matrix (Fin (p + q)) (Fin (p + q)) ℝ => Real.log (blockX M).det) S :=
    continuous_blockX.continuousAt.log (blockX_posDef hS).det_pos.ne'
  have h2 : ContinuousAt (fun M : Matrix (Fin (p + q)) (Fin (p + q)) ℝ => Real.log (blockY M).det) S :=
    continuous_blockY.continuousAt.log (blockY_posDef hS).det_pos.ne'
  have h3 : ContinuousAt (fun M : Matrix (Fin (p + q)) (Fin (p + q)) ℝ => Real.log M.det) S :=
    (Continuous.matrix_det continuous_id).continuousAt.log hS.det_pos.ne'
  exact ((h1.add h2).sub h3).div_const 2

/-- Samples from which the covariance cannot be estimated well. -/
def badCov (δ c : ℝ) (n : ℕ) : Set (Fin n → (Fin p → ℝ) × (Fin q → ℝ)) :=
  {z | ¬ ((sampleCov (joined z)).det ≠ 0 ∧ |gauss (sampleCov (joined z)) - c| < δ)}

theorem measurable_badCov (δ c : ℝ) (n : ℕ) : MeasurableSet (badCov (p := p) (q := q) δ c n) := by
  have m0 : Measurable fun z : Fin n → (Fin p → ℝ) × (Fin q → ℝ) => (sampleCov (joined z)).det :=
    (Continuous.matrix_det continuous_sampleCov).measurable.comp measurable_joined
  have m1 : Measurable fun z : Fin n → (Fin p → ℝ) × (Fin q → ℝ) => (blockX (sampleCov (joined z))).det :=
    (continuous_blockX.comp continuous_sampleCov).measurable.comp measurable_joined
  have m2 : Measurable fun z : Fin n → (Fin p → ℝ) × (Fin q → ℝ) => (blockY (sampleCov (joined z))).det :=
    (continuous_blockY.comp continuous_sampleCov).measurable.comp measurable_joined
  have m3 : Measurable fun z : Fin n → (Fin p → ℝ) × (Fin q → ℝ) => |gauss (sampleCov (joined z)) - c| := by
    unfold gauss
    exact (((m1.log.add m2.log).sub m0.log).div_const 2 |>.sub_const c).abs
  exact ((measurableSet_eq_fun m0 measurable_const).compl.inter (measurableSet_lt m3 measurable_const)).compl

theorem badCov_finally (h : HasCov P S) (hS : S.PosDef) {δ : ℝ} (hδ : 0 < δ) :
    ∀ᵐ ω ∂(Measure.infinitePi fun _ : ℕ => P), ∀ᶠ n in atTop, firstPoints n ω ∉ badCov δ (gauss S) n := by
  filter_upwards [sampleCov_tendsto h] with ω hω
  have h1 : ∀ᶠ n in atTop, (sampleCov (joined (firstPoints n ω))).det ≠ 0 :=
    (((Continuous.matrix_det continuous_id).tendsto S).comp hω).eventually_ne hS.det_pos.ne'
  have h2 := Metric.tendsto_nhds.1 ((gauss_continuousAt hS).tendsto.comp hω) δ hδ
  filter_upwards [h1, h2] with n a b
  exact not_not.2 ⟨a, b⟩

end BMI.Consistency
